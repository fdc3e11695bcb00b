import Verif.FftObj.Props

/-!
# Properties of `FFTPower` and `FFTCorr` (C107): what is asked for does not change what is found
-/
set_option linter.unusedSimpArgs false
set_option synthInstance.maxSize 1000
namespace NBK.FftObj
open NBK

theorem digits_inj (a b : Nat) (h : (toString a).toList = (toString b).toList) : a = b := by
  rw [Nat.toString_eq_ofList_toDigits, Nat.toString_eq_ofList_toDigits, String.toList_ofList, String.toList_ofList] at h
  have := congrArg (Nat.ofDigitChars 10 · 0) h
  simpa [Nat.ofDigitChars_ten_toDigits] using this

/-- Names with different numbers, or different ends of one length, are different. -/
theorem pole_name_inj (u : String) (a b : Nat) (s t : String) (hs : s.toList.length = t.toList.length) (h : u ++ toString a ++ s = u ++ toString b ++ t) :
    a = b ∧ s = t := by
  have h' := congrArg String.toList h
  simp only [String.toList_append, List.append_assoc] at h'
  have h2 := List.append_cancel_left h'
  obtain ⟨h3, h4⟩ := List.append_inj' h2 hs
  exact ⟨digits_inj a b h3, String.toList_inj.mp h4⟩

theorem first_pole (poles : List Nat) : (Project.allPoles poles).headD 0 = 0 := by
  unfold Project.allPoles
  split
  · rename_i h
    have hmem : 0 ∈ poles := by simpa using h
    have hs : (poles.mergeSort (· ≤ ·)).Pairwise (fun a b => (decide (a ≤ b)) = true) :=
      List.pairwise_mergeSort (fun a b c => by simp; omega) (fun a b => by simp; omega) poles
    have hm : 0 ∈ poles.mergeSort (· ≤ ·) := List.mem_mergeSort.mpr hmem
    cases hc : poles.mergeSort (· ≤ ·) with
    | nil => rfl
    | cons a l =>
      rw [hc] at hm hs
      rcases List.mem_cons.mp hm with h | h
      · exact h.symm
      · have := List.rel_of_pairwise_cons hs h; simp at this; simpa using this
  · rfl

/-- The multipole of a bin. -/
def poleAt (h : Bool) (x2 mu : List ℚ) (modes : List (List (List Project.Mode))) (i ell : Nat) : Option ℚ × Option ℚ :=
  let S := fun f => Project.sumMu mu (Project.binSum x2 mu f modes) i
  (Project.ratio (S fun m => (Project.poleTerm h ell m).re) (S fun m => m.w), Project.ratio (S fun m => (Project.poleTerm h ell m).im) (S fun m => m.w))

theorem pole_entry (h : Bool) (x2 mu : List ℚ) (modes : List (List (List Project.Mode))) (poles : List Nat) (i p ell : Nat) (hp : poles[p]? = some ell) :
    (Project.result1d h x2 mu modes poles i).2.1.getD p (none, none) = poleAt h x2 mu modes i ell := by
  have hm : ell ∈ Project.allPoles poles := by
    have h0 : ell ∈ poles := List.mem_of_getElem? hp
    unfold Project.allPoles
    split
    · exact List.mem_mergeSort.mpr h0
    · exact List.mem_cons_of_mem _ (List.mem_mergeSort.mpr h0)
  have hi := List.getElem?_eq_getElem (List.idxOf_lt_length_of_mem hm)
  rw [List.getElem_idxOf] at hi
  unfold Project.result1d poleAt
  dsimp only
  rw [List.getD_eq_getElem?_getD, List.getElem?_map, hp, Option.map_some, Option.getD_some, List.getD_eq_getElem?_getD, List.getElem?_map, hi, Option.map_some,
    Option.getD_some]

/-- The columns of the multipoles, one multipole at a time. -/
theorem mem_poleData (k : Kind) (ed mu : List ℚ) (modes : List (List (List Project.Mode))) (poles : List Nat) (c : Binned.Col) :
    c ∈ poleData k ed mu modes poles ↔
      c = ⟨k.dim, false, (List.range (ed.length - 1)).map fun i => val (Project.result1d k.hermitian (ed.map (· ^ 2)) mu modes [] i).1⟩ ∨
      (∃ ell ∈ poles, c ∈ statCols k (k.stat ++ "_" ++ toString ell) ((List.range (ed.length - 1)).map fun i => poleAt k.hermitian (ed.map (· ^ 2)) mu modes i ell)) ∨
      c = ⟨"modes", true, (List.range (ed.length - 1)).map fun i => .fin (Project.result1d k.hermitian (ed.map (· ^ 2)) mu modes [] i).2.2⟩ := by
  have key : ∀ p ell, poles[p]? = some ell → ((List.range (ed.length - 1)).map fun i => Project.result1d k.hermitian (ed.map (· ^ 2)) mu modes poles i).map
      (fun r => r.2.1.getD p (none, none)) = (List.range (ed.length - 1)).map fun i => poleAt k.hermitian (ed.map (· ^ 2)) mu modes i ell := by
    intro p ell hp
    rw [List.map_map]
    apply List.map_congr_left
    intro i _
    exact pole_entry _ _ _ _ _ _ _ _ hp
  unfold poleData
  simp only [List.mem_append, List.mem_singleton, List.map_map, List.mem_flatten, List.mem_mapIdx, or_assoc]
  apply or_congr Iff.rfl
  apply or_congr _ Iff.rfl
  constructor
  · rintro ⟨l, ⟨p, hp, rfl⟩, hc⟩
    refine ⟨poles[p], List.getElem_mem hp, ?_⟩
    rw [← key p _ (List.getElem?_eq_getElem hp), List.map_map]
    exact hc
  · rintro ⟨ell, hm, hc⟩
    obtain ⟨p, hp, rfl⟩ := List.getElem_of_mem hm
    refine ⟨_, ⟨p, hp, rfl⟩, ?_⟩
    rw [← key p _ (List.getElem?_eq_getElem hp), List.map_map] at hc
    exact hc

theorem statCols_same (k : Kind) (a b : Nat) (f : Nat → List (Option ℚ × Option ℚ)) (c c' : Binned.Col) (hc : c ∈ statCols k (k.stat ++ "_" ++ toString a) (f a))
    (hc' : c' ∈ statCols k (k.stat ++ "_" ++ toString b) (f b)) (hn : c.name = c'.name) : c = c' := by
  cases k with
  | power =>
    unfold statCols at hc hc'
    simp only [List.mem_cons, List.not_mem_nil, or_false] at hc hc'
    rcases hc with rfl | rfl <;> rcases hc' with rfl | rfl
    · obtain ⟨rfl, -⟩ := pole_name_inj _ a b ".real" ".real" (by decide) hn; rfl
    · obtain ⟨-, h⟩ := pole_name_inj _ a b ".real" ".imag" (by decide) hn; exact absurd h (by decide)
    · obtain ⟨-, h⟩ := pole_name_inj _ a b ".imag" ".real" (by decide) hn; exact absurd h (by decide)
    · obtain ⟨rfl, -⟩ := pole_name_inj _ a b ".imag" ".imag" (by decide) hn; rfl
  | corr =>
    unfold statCols at hc hc'
    simp only [List.mem_cons, List.not_mem_nil, or_false] at hc hc'
    subst hc; subst hc'
    obtain ⟨rfl, -⟩ := pole_name_inj (Kind.corr.stat ++ "_") a b "" "" rfl (by simpa using hn)
    rfl

theorem statCols_name (k : Kind) (a : Nat) (v : List (Option ℚ × Option ℚ)) (c : Binned.Col) (hc : c ∈ statCols k (k.stat ++ "_" ++ toString a) v) :
    c.name ≠ k.dim ∧ c.name ≠ "modes" := by
  have h1 : ∀ s : String, ("power" ++ s) ≠ "k" ∧ ("power" ++ s) ≠ "modes" := by
    intro s
    constructor
    · intro h
      have := congrArg (fun x : String => x.toList.head?) h
      simp only [String.toList_append] at this
      exact absurd (show some 'p' = some 'k' from this) (by decide)
    · intro h
      have := congrArg (fun x : String => x.toList.head?) h
      simp only [String.toList_append] at this
      exact absurd (show some 'p' = some 'm' from this) (by decide)
  have h2 : ∀ s : String, ("corr" ++ s) ≠ "r" ∧ ("corr" ++ s) ≠ "modes" := by
    intro s
    constructor
    · intro h
      have := congrArg (fun x : String => x.toList.head?) h
      simp only [String.toList_append] at this
      exact absurd (show some 'c' = some 'r' from this) (by decide)
    · intro h
      have := congrArg (fun x : String => x.toList.head?) h
      simp only [String.toList_append] at this
      exact absurd (show some 'c' = some 'm' from this) (by decide)
  cases k with
  | power =>
    unfold statCols at hc
    simp only [List.mem_cons, List.not_mem_nil, or_false] at hc
    rcases hc with rfl | rfl
    · dsimp only; rw [String.append_assoc, String.append_assoc]; exact h1 _
    · dsimp only; rw [String.append_assoc, String.append_assoc]; exact h1 _
  | corr =>
    unfold statCols at hc
    simp only [List.mem_cons, List.not_mem_nil, or_false] at hc
    subst hc
    dsimp only; rw [String.append_assoc]; exact h2 _

theorem poleData_apart (k : Kind) (ed mu : List ℚ) (modes : List (List (List Project.Mode))) (p p' : List Nat) (c c' : Binned.Col)
    (hc : c ∈ poleData k ed mu modes p) (hc' : c' ∈ poleData k ed mu modes p') (hn : c.name = c'.name) : c = c' := by
  have hd : k.dim ≠ "modes" := by cases k <;> decide
  rw [mem_poleData] at hc hc'
  rcases hc with rfl | ⟨e, -, hc⟩ | rfl <;> rcases hc' with rfl | ⟨e', -, hc'⟩ | rfl
  · rfl
  · exact absurd hn.symm (statCols_name _ _ _ _ hc').1
  · exact absurd hn hd
  · exact absurd hn (statCols_name _ _ _ _ hc).1
  · exact statCols_same k e e' (fun ell => (List.range (ed.length - 1)).map fun i => poleAt k.hermitian (ed.map (· ^ 2)) mu modes i ell) c c' hc hc' hn
  · exact absurd hn (statCols_name _ _ _ _ hc).2
  · exact absurd hn.symm hd
  · exact absurd hn.symm (statCols_name _ _ _ _ hc').2
  · rfl

theorem statData_poles (k : Kind) (b : Bool) (ed mu : List ℚ) (modes : List (List (List Project.Mode))) (p : List Nat) :
    statData k b ed mu modes p = statData k b ed mu modes [] := by
  unfold statData Project.result2d
  dsimp only
  simp only [first_pole]

/-- C107: two calls that differ only in the multipoles asked for give the same power or correlation function - edges, coordinates, every column, the mask -, the
same sizes and shot noise, and the same values in every column that both tables of multipoles have. -/
theorem poles_apart (e : Env) (k : Kind) (first : Src) (second : Option Src) (g : Args) (p : Option (List Int)) (o o' : Obj)
    (h : new e k first second g = .ok o) (h' : new e k first second { g with poles := p } = .ok o') :
    o'.stat.data = o.stat.data ∧ o'.stat.edges = o.stat.edges ∧ o'.stat.coords = o.stat.coords ∧ o'.stat.mask = o.stat.mask ∧
    o'.attrs.N1 = o.attrs.N1 ∧ o'.attrs.N2 = o.attrs.N2 ∧ o'.attrs.shotnoise = o.attrs.shotnoise ∧
    ∀ b b', o.poles = some (some b) → o'.poles = some (some b') → b'.edges = b.edges ∧ b'.coords = b.coords ∧
      ∀ c ∈ b.data, ∀ c' ∈ b'.data, c.name = c'.name → c = c' := by
  obtain ⟨hm, los, l1, l2, l3, m1, m2, hc, hr⟩ := (new_eq e k first second g o).mp h
  obtain ⟨hm', los', l1', l2', l3', m1', m2', hc', hr'⟩ := (new_eq e k first second _ o').mp h'
  have e1 : los' = los := Option.some.inj (l1'.symm.trans l1)
  have e2 : (Except.ok (m1', m2') : Except Err (Mesh × Mesh)) = .ok (m1, m2) := hc'.symm.trans hc
  cases e1; cases e2
  obtain ⟨ed, cs, hb, hne, hnd, hpos, rfl⟩ := run_ok e k _ m1 m2 hm o hr
  obtain ⟨ed', cs', hb', hne', hnd', hpos', rfl⟩ := run_ok e k _ m1 m2 hm' o' hr'
  have e3 : (Except.ok (ed', cs') : Except Err (List ℚ × Option (List ℚ))) = .ok (ed, cs) := hb'.symm.trans hb
  cases e3
  have hs : statData k (decide (g.mode = "1d")) ed (muEdges k (usedNmu (inAttrs e k { g with poles := p } los m1))) (e.stat3d k m1.nmesh m1.src m2.src)
      ((p.getD []).map Int.toNat) =
      statData k (decide (g.mode = "1d")) ed (muEdges k (usedNmu (inAttrs e k g los m1))) (e.stat3d k m1.nmesh m1.src m2.src) ((g.poles.getD []).map Int.toNat) := by
    rw [statData_poles, statData_poles k _ ed _ _ ((g.poles.getD []).map Int.toNat)]
    rfl
  have hu : usedNmu (inAttrs e k { g with poles := p } los m1) = usedNmu (inAttrs e k g los m1) := rfl
  refine ⟨?_, ?_, ?_, ?_, rfl, rfl, rfl, ?_⟩
  · unfold outStat inAttrs at *
    dsimp only at hs ⊢
    split_ifs <;> exact hs
  · unfold outStat inAttrs
    dsimp only
    split_ifs <;> rfl
  · unfold outStat inAttrs
    dsimp only
    split_ifs <;> rfl
  · unfold outStat inAttrs at *
    dsimp only at hs ⊢
    split_ifs
    · dsimp only; rw [hs]
    · dsimp only; rw [hs]; rfl
  · intro b b' hb1 hb2
    have f1 := Option.some.inj hb1
    have f2 := Option.some.inj hb2
    unfold outPoles at f1 f2
    dsimp only at f1 f2
    split_ifs at f1
    split_ifs at f2
    have g1 := Option.some.inj f1
    have g2 := Option.some.inj f2
    subst g1; subst g2
    refine ⟨rfl, rfl, ?_⟩
    intro c hc1 c' hc2 hn
    exact poleData_apart k ed _ _ _ _ c c' hc1 hc2 hn

/-- The numbers of a table. -/
def numbers (b : Binned.BS Attrs) : List (String × List ℚ) := b.data.map fun c => (c.name, c.vals.map toQ)

/-- The arguments of the case, with multipoles. -/
def withPoles (l : List Int) : Args := { mode := "1d", dx := some 1, xmax := some 4, poles := some l }

/-- C107: the hypotheses of `poles_apart` hold: the quadrupole alone, and with the monopole. -/
theorem poles_case :
    ((new env .power cat none (withPoles [2])).toOption.map fun o => (numbers o.stat, o.poles.map fun p => p.map numbers)) =
      some ([("k", [0, 1, 2]), ("power.real", [0, 4, 6]), ("power.imag", [0, 0, 0]), ("modes", [1, 1, 2])],
        some (some [("k", [0, 1, 2]), ("power_2.real", [0, 20, -15 / 4]), ("power_2.imag", [0, 0, 0]), ("modes", [1, 1, 2])])) ∧
    ((new env .power cat none (withPoles [2, 0])).toOption.map fun o => o.poles.map fun p => p.map fun b => b.data.map Binned.Col.name) =
      some (some (some ["k", "power_2.real", "power_2.imag", "power_0.real", "power_0.imag", "modes"])) := by
  constructor
  · decide +kernel
  · decide +kernel

end NBK.FftObj
