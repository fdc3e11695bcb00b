import Verif.ConvObj.Props

/-!
# `ConvolvedFFTPower`: repeated runs, failing runs, saving and loading
-/
set_option linter.unusedSimpArgs false
namespace NBK.ConvObj
open NBK

variable {n : Nat} {K : Type} [CommRing K]

/-! ## Saving and loading -/

theorem data_sized (e : Env n K) (hs : Sized e) (ed : List ℚ) (m1 m2 : Mesh) (nm : List Nat) (c1 c2 : Option String) (norm : ℚ) (l : List Nat)
    (f : Nat → Fin n → K) (c : Binned.Col)
    (hc : c ∈ ([⟨"k", false, (e.conv ed m1 m2 nm c1 c2 norm).projK.map FftObj.val⟩] ++ l.flatMap (fun l =>
          let v := (e.conv ed m1 m2 nm c1 c2 norm).projP (f l)
          [⟨"power_" ++ toString l ++ ".real", false, v.map fun x => FftObj.val x.1⟩, ⟨"power_" ++ toString l ++ ".imag", false, v.map fun x => FftObj.val x.2⟩])
          ++ [⟨"modes", true, (e.conv ed m1 m2 nm c1 c2 norm).projN.map FftObj.val⟩] : List Binned.Col)) : c.vals.length = ed.length - 1 := by
  obtain ⟨s1, s2, s3⟩ := hs ed m1 m2 nm c1 c2 norm
  simp only [List.mem_append, List.mem_singleton, List.mem_flatMap, List.mem_cons, List.not_mem_nil, or_false] at hc
  rcases hc with (rfl | ⟨x, _, rfl | rfl⟩) | rfl <;> simp [s1, s2, s3]

/-- C109 (partial): loading what was saved gives the attributes and the table back. Missing: the attribute `edges` is not there, and the table does not know
that `modes` is to be summed. -/
theorem saveLoad_partial (e : Env n K) (hcons : Consistent e) (hs : Sized e) (h : Heap) (g : Args) (h' : Heap) (o : Obj) (hk : new e h g = (h', .ok o)) :
    load (save o) "current" = .ok ⟨some o.attrs, some { o.poles with fts := [] }, none⟩ ∧ o.poles.fts = ["modes"] ∧
    o.edges = o.poles.edges.head? ∧ load (save o) "pre000305" = .error .keyError := by
  obtain ⟨r1, r2, m1, m2, norm, ed, cs, q1, q2, q3, q4, q5, q6, q7, q8, q9, q10, q11, q12, q13, q14, q15, q16, q17, q18, q19, q20, q21, q22, q23, q24, q25, q26, q27,
    q28, q29, q30⟩ := result_spec e hcons h g h' o hk
  have hpos := List.length_pos_of_ne_nil q27
  have hcl : (cs.getD (Binned.centers ed)).length = ed.length - 1 := by
    cases cs with
    | none => exact FftObj.centers_length ed
    | some c => have := q28 c rfl; simp; omega
  have hsh : o.poles.shape.prod = ed.length - 1 := by rw [q29]; simp [Binned.BS.shape, hcl]
  have hwf : Binned.WF o.poles := by
    refine ⟨by rw [q29]; simp, by rw [q29]; rfl, by rw [q29]; rfl, ?_, ?_, ?_⟩
    · intro i x c hx hc
      rw [q29] at hx hc
      cases i with
      | zero => simp at hx hc; subst hx hc; omega
      | succ i => simp at hx
    · intro c hc
      rw [hsh]
      rw [q30] at hc
      exact data_sized e hs _ _ _ _ _ _ _ _ _ c hc
    · rw [hsh, q29]; simp [Binned.maskOf]
  refine ⟨?_, by rw [q29], by rw [q26, q29]; rfl, rfl⟩
  have hmask : o.poles.mask = Binned.maskOf o.poles.shape.prod o.poles.data := by rw [hsh, q29]
  simp only [load, save, setstate, if_true, Binned.roundtrip_eq _ hwf, lift, Except.bind, ← hmask]

/-- C109: files of versions before 0.3.5: they load with the format `pre000305`, with the edges of the bins, the centers of the bins as coordinates
and `modes` to be summed, but without attributes in the table; with the format `current` they do not. -/
theorem load_old (ed : List ℚ) (data : List Binned.Col) (a : Full) :
    load (.old ed [ed.length - 1] data a) "pre000305" = .ok ⟨some a, some ⟨["k"], [ed], [Binned.centers ed], data, Binned.maskOf (ed.length - 1) data, none, ["modes"]⟩, none⟩ ∧
    load (.old ed [ed.length - 1] data a) "current" = .error .valueError := by
  refine ⟨?_, rfl⟩
  have h1 : ¬ ("pre000305" = "current") := by decide
  simp only [load, h1, if_false, if_true, setstateOld]
  have : Binned.init ["k"] [ed] [ed.length - 1] data ["modes"] none (none : Option Full) =
      .ok ⟨["k"], [ed], [Binned.centers ed], data, Binned.maskOf (ed.length - 1) data, none, ["modes"]⟩ := by
    unfold Binned.init
    simp [FftObj.centers_length]
  rw [this]
  rfl

/-- C109, negation: a format that `load` does not know is not an error: the object comes without table, attributes and edges, whatever is in the file. -/
theorem unknown_format (f : File) (s : String) (h1 : s ≠ "current") (h2 : s ≠ "pre000305") : load f s = .ok ⟨none, none, none⟩ := by
  simp [load, h1, h2]

/-! ## Runs that fail, and repeated runs -/

/-- An autocorrelation of a mesh of the caller. -/
theorem new_auto (e : Env n K) (h : Heap) (g : Args) (i : Nat) (m : Mesh) (hm : h[i]? = some m) (hd : g.deprecated = false) (hn : g.nmesh = none) (hf : g.first = .mesh i)
    (hs : g.second = none) : new e h g = build e g h i i m m := by
  have hv : validCross m m = true := (valid_iff m m).mpr ⟨rfl, rfl, rfl, rfl⟩
  simp [new, hd, hn, hf, hs, castMesh, castSecond, hm, FftObj.mismatch, hv]

/-- C109: no multipole is an UnboundLocalError, the same one twice and an `alpha` that is NaN are ValueErrors; the mesh of the caller has lost its actions and its `compensated` flag by
then. -/
theorem failing_run (e : Env n K) (h : Heap) (g : Args) (i : Nat) (m : Mesh) (hm : h[i]? = some m) (hd : g.deprecated = false) (hn : g.nmesh = none)
    (hf : g.first = .mesh i) (hs : g.second = none) (a : Attrs)
    (ha : a = ⟨g.poles.list, g.dk, g.kmin, g.kmax, m.nmesh, m.boxSize, m.boxPad, m.boxCenter, m.resampler, m.interlaced⟩) (ed : List ℚ) (cs : Option (List ℚ))
    (hb : kBins e m a = .ok (ed, cs)) :
    (new e h g).1[i]? = some { m with actions := [], compensated := false } ∧
    (¬ g.poles.list.Nodup → ∃ h', new e h g = (h', .error .valueError)) ∧
    ((e.painted (clearMesh m) m.nmesh).nan = true → ∃ h', new e h g = (h', .error .valueError)) ∧
    (∀ norm, g.poles.list = [] → ed ≠ [] → (e.painted (clearMesh m) m.nmesh).nan = false → Fkp.normFactor (e.dataNorm (clearMesh m) (clearMesh m) (e.painted (clearMesh m) m.nmesh).alpha)
        (e.randomsNorm (clearMesh m) (clearMesh m) (e.painted (clearMesh m) m.nmesh).alpha) = .ok norm → ∃ h', new e h g = (h', .error .unboundLocal)) := by
  rw [new_auto e h g i m hm hd hn hf hs, build_eq e g h i i m m hm hm]
  simp only [if_true, ← ha, hb]
  have hdup : ¬ g.poles.list.Nodup → compute e (decide True) (clearMesh m) (clearMesh m) a ed = .error .valueError := by
    intro hnd
    have : ¬ a.poles.Nodup ∨ ed = [] := by left; rw [ha]; exact hnd
    unfold compute
    dsimp only
    rw [if_pos this]
  refine ⟨?_, ?_, ?_, ?_⟩
  · rw [clear_get, if_pos (.inl rfl), join_get, if_pos (.inl rfl), hm]
    rfl
  · intro hnd
    rw [hdup hnd]
    exact ⟨_, rfl⟩
  · intro hnan
    have hnm : a.nmesh = m.nmesh := by rw [ha]
    unfold compute
    dsimp only
    rw [hnm]
    by_cases hq : ¬ a.poles.Nodup ∨ ed = []
    · rw [if_pos hq]; exact ⟨_, rfl⟩
    · rw [if_neg hq, if_pos (by simp [hnan])]; exact ⟨_, rfl⟩
  · intro norm h0 hed hnan hnorm
    have hp : a.poles = [] := by rw [ha]; exact h0
    have hnm : a.nmesh = m.nmesh := by rw [ha]
    unfold compute
    dsimp only
    rw [if_neg (by simp [hp, hed]), hnm, if_neg (by simp [hnan]), if_neg (by simp), hnorm]
    dsimp only
    rw [if_neg (by simp [hp]), hp, Convpower.no_poles]
    exact ⟨_, rfl⟩

/-- C109: a second run with the same arguments on the meshes that the first one left gives the same result and changes nothing more. -/
theorem twice (e : Env n K) (h : Heap) (g : Args) (h' : Heap) (o : Obj) (hk : new e h g = (h', .ok o)) (i : Nat) (hf : g.first = .mesh i)
    (hs : g.second = none ∨ ∃ j, g.second = some (.mesh j)) : new e h' g = (h', .ok o) := by
  rcases new_cases e h g with ⟨h2', x, he, hp⟩ | ⟨ha, hb, r1, r2, n1, n2, hc, hcs, hp, hm1, hm2, hv, hco, hd, he⟩
  · rw [he] at hk; cases hk
  have hfirst : ha = h ∧ r1 = i ∧ FftObj.mismatch n1.nmesh g.nmesh = false := by
    have hh := hc
    rw [hf] at hh
    simp only [castMesh] at hh
    split at hh
    · cases hh
    rename_i m hm
    split at hh
    · cases hh
    rename_i hmm
    simp only [Except.ok.injEq, Prod.mk.injEq] at hh
    obtain ⟨rfl, rfl⟩ := hh
    have := hp _ m hm
    rw [hm1] at this
    cases this
    exact ⟨rfl, rfl, by simpa using hmm⟩
  obtain ⟨rfl, rfl, hmm1⟩ := hfirst
  have hsecond : hb = ha ∧ FftObj.mismatch n2.nmesh g.nmesh = false ∧ ((g.second = none ∧ r2 = r1) ∨ g.second = some (.mesh r2)) := by
    rcases hs with hs | ⟨j, hs⟩
    · have hh := hcs
      rw [hs] at hh
      simp only [castSecond, Except.ok.injEq, Prod.mk.injEq] at hh
      obtain ⟨rfl, rfl⟩ := hh
      rw [hm1] at hm2
      cases hm2
      exact ⟨rfl, hmm1, .inl ⟨hs, rfl⟩⟩
    · have hh := hcs
      rw [hs] at hh
      simp only [castSecond, castMesh] at hh
      split at hh
      · cases hh
      rename_i m hm
      split at hh
      · cases hh
      rename_i hmm
      simp only [Except.ok.injEq, Prod.mk.injEq] at hh
      obtain ⟨rfl, rfl⟩ := hh
      rw [hm] at hm2
      cases hm2
      exact ⟨rfl, by simpa using hmm, .inr hs⟩
  obtain ⟨rfl, hmm2, hsec⟩ := hsecond
  rw [he, build_eq e g hb r1 r2 n1 n2 hm1 hm2] at hk
  dsimp only at hk
  generalize hfe : (fun m => if n1.boxSize = n2.boxSize then m else recenter (jointBox n1 n2) m) = f at hk
  have hf1 : (if n1.boxSize = n2.boxSize then n1 else recenter (jointBox n1 n2) n1) = f n1 := by rw [← hfe]
  have hf2 : (if n1.boxSize = n2.boxSize then n2 else recenter (jointBox n1 n2) n2) = f n2 := by rw [← hfe]
  simp only [hf1, hf2] at hk
  split at hk
  · cases hk
  rename_i bins hbins
  simp only [Prod.mk.injEq] at hk
  obtain ⟨hk1, hk2⟩ := hk
  have hget : ∀ (i : Nat) (m : Mesh), hb[i]? = some m → (i = r1 ∨ i = r2) → h'[i]? = some (clearMesh (f m)) := by
    intro i m hm hi
    rw [← hk1, clear_get, if_pos hi, join_get, hm]
    by_cases hbx : n1.boxSize = n2.boxSize
    · rw [if_pos (.inl hbx), ← hfe]; simp [hbx]
    · rw [if_neg (by rintro (q | q); exact hbx q; rcases hi with rfl | rfl; exact q.1 rfl; exact q.2 rfl), ← hfe]; simp [hbx]
  have g1 := hget r1 n1 hm1 (.inl rfl)
  have g2 := hget r2 n2 hm2 (.inr rfl)
  have fld : ∀ m, (clearMesh (f m)).source = m.source ∧ (clearMesh (f m)).nbar = m.nbar ∧ (clearMesh (f m)).selection = m.selection ∧
      (clearMesh (f m)).compWeight = m.compWeight ∧ (clearMesh (f m)).comm = m.comm ∧ (clearMesh (f m)).nmesh = m.nmesh ∧ (clearMesh (f m)).pmBox = m.pmBox ∧
      (clearMesh (f m)).boxPad = m.boxPad ∧ (clearMesh (f m)).resampler = m.resampler ∧ (clearMesh (f m)).interlaced = m.interlaced := by
    intro m; rw [← hfe]; dsimp only; split <;> exact ⟨rfl, rfl, rfl, rfl, rfl, rfl, rfl, rfl, rfl, rfl⟩
  obtain ⟨f1, f2, f3, f4, f5, f6, f7, f8, f9, f10⟩ := fld n1
  obtain ⟨e1, e2, e3, e4, e5, e6, e7, e8, e9, e10⟩ := fld n2
  have hv' : validCross (clearMesh (f n1)) (clearMesh (f n2)) = true := by
    obtain ⟨v1, v2, v3, v4⟩ := (valid_iff n1 n2).mp hv
    exact (valid_iff _ _).mpr ⟨by rw [e1, f1, v1], by rw [e3, f3, v2], by rw [e4, f4, v3], by rw [e2, f2, v4]⟩
  have hbox : (clearMesh (f n1)).boxSize = (clearMesh (f n2)).boxSize := by
    rw [← hfe]
    dsimp only
    split
    · assumption
    · rfl
  have hcs' : castSecond h' g.nmesh r1 g.second = .ok (h', r2) := by
    rcases hsec with ⟨hs, rfl⟩ | hs
    · rw [hs]; rfl
    · rw [hs]; simp [castSecond, castMesh, g2, e6, hmm2]
  have hnew : new e h' g = build e g h' r1 r2 (clearMesh (f n1)) (clearMesh (f n2)) := by
    unfold new
    rw [if_neg (by simp [hd]), hf]
    simp only [castMesh, g1, f6, hmm1, Bool.false_eq_true, if_false, hcs', g2]
    rw [if_neg (by simp [hv']), if_neg (by rw [e5, f5, hco]; simp)]
  rw [hnew, build_eq e g h' r1 r2 _ _ g1 g2]
  simp only [hbox, if_true, f6, f8, f9, f10]
  have hkb : ∀ a, kBins e (clearMesh (f n1)) a = kBins e n1 a := by
    intro a; unfold kBins; rw [f6, f7]
  have hclr : ∀ m, clearMesh (clearMesh m) = clearMesh m := fun m => rfl
  have hat : (clearMesh (f n2)).boxSize = (f n1).boxSize := hbox.symm
  rw [hkb, hat, show (clearMesh (f n1)).boxCenter = (f n1).boxCenter from rfl, hbins, hclr, hclr]
  dsimp only
  rw [hk2]
  congr 1
  have hj : join h' r1 r2 (clearMesh (f n1)) (clearMesh (f n2)) = h' := by unfold join; rw [if_pos hbox]
  rw [hj]
  apply List.ext_getElem?
  intro k
  rw [clear_get]
  split
  · rename_i hx
    rcases hx with rfl | rfl
    · rw [g1]; rfl
    · rw [g2]; rfl
  · rfl

/-- C109: the actions and the `compensated` flag of the meshes do not matter. -/
theorem flags_ignored (e : Env n K) (h1 h2 : Heap) (hh : h1.map clearMesh = h2.map clearMesh) (g : Args) : (new e h1 g).2 = (new e h2 g).2 := by
  have hget : ∀ (a b : Heap), a.map clearMesh = b.map clearMesh → ∀ i : Nat, (a[i]? = none ∧ b[i]? = none) ∨ ∃ m m', a[i]? = some m ∧ b[i]? = some m' ∧ clearMesh m = clearMesh m' := by
    intro a b hab i
    have : (a.map clearMesh)[i]? = (b.map clearMesh)[i]? := by rw [hab]
    simp only [List.getElem?_map] at this
    cases ha : a[i]? <;> cases hb : b[i]? <;> rw [ha, hb] at this <;> simp_all
  have hcast : ∀ (a b : Heap), a.map clearMesh = b.map clearMesh → ∀ s, (∃ x, castMesh a g.nmesh s = .error x ∧ castMesh b g.nmesh s = .error x) ∨
      ∃ a' b' r, castMesh a g.nmesh s = .ok (a', r) ∧ castMesh b g.nmesh s = .ok (b', r) ∧ a'.map clearMesh = b'.map clearMesh := by
    intro a b hab s
    have hlen : a.length = b.length := by simpa using congrArg List.length hab
    cases s with
    | other => exact .inl ⟨_, rfl, rfl⟩
    | mesh i =>
      rcases hget a b hab i with ⟨q1, q2⟩ | ⟨m, m', q1, q2, q3⟩
      · left; exact ⟨.other, by simp [castMesh, q1], by simp [castMesh, q2]⟩
      · have : m.nmesh = m'.nmesh := by have hq := congrArg Mesh.nmesh q3; exact hq
        by_cases hmm : FftObj.mismatch m.nmesh g.nmesh = true
        · left; exact ⟨.valueError, by simp [castMesh, q1, hmm], by simp [castMesh, q2, ← this, hmm]⟩
        · right; exact ⟨a, b, i, by simp [castMesh, q1, hmm], by simp [castMesh, q2, ← this, hmm], hab⟩
    | catalog c =>
      simp only [castMesh]
      cases toMesh c g.nmesh with
      | error x => left; exact ⟨x, rfl, rfl⟩
      | ok m =>
        simp only [Except.bind]
        split
        · left; exact ⟨_, rfl, rfl⟩
        · right; exact ⟨_, _, _, rfl, by rw [hlen], by simp [hab]⟩
  unfold new
  by_cases hd : g.deprecated = true
  · simp [hd]
  rw [if_neg hd, if_neg hd]
  rcases hcast h1 h2 hh g.first with ⟨x, q1, q2⟩ | ⟨a, b, r1, q1, q2, hab⟩
  · rw [q1, q2]
  rw [q1, q2]
  dsimp only
  have hsec : (∃ x, castSecond a g.nmesh r1 g.second = .error x ∧ castSecond b g.nmesh r1 g.second = .error x) ∨
      ∃ a' b' r, castSecond a g.nmesh r1 g.second = .ok (a', r) ∧ castSecond b g.nmesh r1 g.second = .ok (b', r) ∧ a'.map clearMesh = b'.map clearMesh := by
    cases g.second with
    | none => right; exact ⟨a, b, r1, rfl, rfl, hab⟩
    | some s => exact hcast a b hab s
  rcases hsec with ⟨x, q1, q2⟩ | ⟨c, d, r2, q1, q2, hcd⟩
  · rw [q1, q2]
  rw [q1, q2]
  dsimp only
  rcases hget c d hcd r1 with ⟨p1, p2⟩ | ⟨m1, m1', p1, p2, p3⟩
  · rw [p1, p2]
  rcases hget c d hcd r2 with ⟨s1, s2⟩ | ⟨m2, m2', s1, s2, s3⟩
  · rw [p1, p2, s1, s2]
  rw [p1, p2, s1, s2]
  dsimp only
  have hvv : validCross m1 m2 = validCross m1' m2' := by
    show validCross (clearMesh m1) (clearMesh m2) = validCross (clearMesh m1') (clearMesh m2')
    rw [p3, s3]
  have hc1 : m1.comm = m1'.comm := by have hq := congrArg Mesh.comm p3; exact hq
  have hc2 : m2.comm = m2'.comm := by have hq := congrArg Mesh.comm s3; exact hq
  rw [hvv, hc1, hc2]
  split
  · rfl
  split
  · rfl
  rw [build_eq e g c r1 r2 m1 m2 p1 s1, build_eq e g d r1 r2 m1' m2' p2 s2]
  dsimp only
  have b1 : m1.boxSize = m1'.boxSize := by have hq := congrArg Mesh.boxSize p3; exact hq
  have b2 : m2.boxSize = m2'.boxSize := by have hq := congrArg Mesh.boxSize s3; exact hq
  have hjb : jointBox m1 m2 = jointBox m1' m2' := by
    show jointBox (clearMesh m1) (clearMesh m2) = jointBox (clearMesh m1') (clearMesh m2')
    rw [p3, s3]
  have k1 : ∀ a, kBins e m1 a = kBins e m1' a := by
    intro a
    show kBins e (clearMesh m1) a = kBins e (clearMesh m1') a
    rw [p3]
  have z1 : m1.nmesh = m1'.nmesh := by have hq := congrArg Mesh.nmesh p3; exact hq
  have z2 : m1.boxPad = m1'.boxPad := by have hq := congrArg Mesh.boxPad p3; exact hq
  have z3 : m1.resampler = m1'.resampler := by have hq := congrArg Mesh.resampler p3; exact hq
  have z4 : m1.interlaced = m1'.interlaced := by have hq := congrArg Mesh.interlaced p3; exact hq
  have z5 : m1.boxCenter = m1'.boxCenter := by have hq := congrArg Mesh.boxCenter p3; exact hq
  have hfm : ∀ m m', clearMesh m = clearMesh m' → clearMesh (if m1'.boxSize = m2'.boxSize then m else recenter (jointBox m1' m2') m) =
      clearMesh (if m1'.boxSize = m2'.boxSize then m' else recenter (jointBox m1' m2') m') := by
    intro m m' hm
    split
    · exact hm
    · show recenter (jointBox m1' m2') (clearMesh m) = recenter (jointBox m1' m2') (clearMesh m')
      rw [hm]
  rw [b1, b2, hjb, hfm m1 m1' p3, hfm m2 m2' s3, k1, z1, z2, z3, z4]
  have w1 : (if m1'.boxSize = m2'.boxSize then m1 else recenter (jointBox m1' m2') m1).boxSize =
      (if m1'.boxSize = m2'.boxSize then m1' else recenter (jointBox m1' m2') m1').boxSize := by have hq := congrArg Mesh.boxSize (hfm m1 m1' p3); exact hq
  have w2 : (if m1'.boxSize = m2'.boxSize then m1 else recenter (jointBox m1' m2') m1).boxCenter =
      (if m1'.boxSize = m2'.boxSize then m1' else recenter (jointBox m1' m2') m1').boxCenter := by have hq := congrArg Mesh.boxCenter (hfm m1 m1' p3); exact hq
  rw [w1, w2]
  split <;> rfl

/-! ## A case -/

/-- One mode; the power is its value in each of the bins. -/
def env : Env 1 ℚ :=
  ⟨22 / 7, fun q => q, fun _ _ => [], fun m _ => ⟨some 1, [("data.N", m.source), ("x", 1)], false⟩, fun _ _ _ => some 1, fun _ _ _ => some (101 / 100), fun _ _ _ _ => some 2,
    fun ed m1 m2 _ c1 c2 _ => ⟨fun _ => m1.boxSize.headD 0, fun _ => m2.boxSize.headD 0, id, id, c1.map fun _ _ => 2, c2.map fun _ _ => 2,
      fun l => [(fun _ => l, fun _ => 3)], 1, 1, 1, (List.range (ed.length - 1)).map fun i => some (i : ℚ),
      fun f => (List.range (ed.length - 1)).map fun _ => (some (f 0), some 0), (List.range (ed.length - 1)).map fun _ => some 1⟩, fun _ _ => 0⟩

theorem env_consistent : Consistent env := fun _ _ _ _ _ => ⟨rfl, rfl⟩

theorem env_sized : Sized env := fun ed _ _ _ _ _ _ => ⟨by simp [env], by simp [env], fun f => by simp [env]⟩

def mA : Mesh := { source := 5, comm := 0, nmesh := [8, 8, 8], pmBox := [10, 10, 10], boxSize := [10, 10, 10], boxCenter := [1, 1, 1], boxPad := [0, 0, 0],
                   compensated := true, actions := ["smooth"] }
def mB : Mesh := { source := 5, comm := 0, fkpWeight := "W2", nmesh := [8, 8, 8], pmBox := [20, 5, 10], boxSize := [20, 5, 10], boxCenter := [2, 2, 2], boxPad := [0, 0, 0] }

def gA : Args := { first := .mesh 0, poles := .many [2, 0], kmax := some 3, dk := some 1 }
def gX : Args := { first := .mesh 0, second := some (.mesh 1), poles := .many [2, 0], kmax := some 3, dk := some 1 }

/-- The numbers of a result. -/
def view (o : Obj) : List ℚ × List (String × List Binned.Val) × Option (List ℚ) := (o.attrs.args.boxSize, o.poles.data.map fun c => (c.name, c.vals), o.edges)

/-- C109: the auto- and the cross-correlation of two meshes. -/
theorem auto_case : (new env [mA, mB] gA).2.toOption.map view =
    some ([10, 10, 10], [("k", [.fin 0, .fin 1]), ("power_0.real", [.fin 400, .fin 400]), ("power_0.imag", [.fin 0, .fin 0]),
      ("power_2.real", [.fin 2400, .fin 2400]), ("power_2.imag", [.fin 0, .fin 0]), ("modes", [.fin 1, .fin 1])], some [0, 1, 2]) := by decide +kernel

theorem cross_case : (new env [mA, mB] gX).2.toOption.map view =
    some ([20, 10, 10], [("k", [.fin 0, .fin 1]), ("power_0.real", [.fin 1600, .fin 1600]), ("power_0.imag", [.fin 0, .fin 0]),
      ("power_2.real", [.fin 9600, .fin 9600]), ("power_2.imag", [.fin 0, .fin 0]), ("modes", [.fin 1, .fin 1])], some [0, 1, 2]) ∧
    (new env [mA, mB] gX).1 = [{ mA with boxSize := [20, 10, 10], boxCenter := [2, 1, 1], compensated := false, actions := [] },
      { mB with boxSize := [20, 10, 10], boxCenter := [2, 1, 1] }] := by decide +kernel

/-- C109, negation: the result for a mesh depends on what was computed with it before: after a cross-correlation with a mesh of a larger box its
autocorrelation is that in the larger box. -/
theorem history_matters : ¬ ∀ (h : Heap) (g g' : Args), (new env (new env h g').1 g).2.toOption.map view = (new env h g).2.toOption.map view := by
  intro h
  have := h [mA, mB] gA gX
  revert this
  decide +kernel

end NBK.ConvObj
