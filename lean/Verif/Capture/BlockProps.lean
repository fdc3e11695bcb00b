import Verif.Capture.Props

/-! # Captured output (C138): blocks -/
set_option linter.unusedSimpArgs false
namespace NBK.Capture

theorem nesting_cons (d : Nat) (e : Ev) (es : List Ev) : nesting d (e :: es) = (nesting d [e]).bind fun d' => nesting d' es := by
  cases e <;> cases d <;> simp [nesting]

theorem Ordered.above {g : Frame} {F : List Frame} : ∀ (l : List Frame) (p q : Nat), Ordered (l ++ g :: F) p q → (∀ x ∈ l, g.q0 + 2 ≤ x.q0) ∧ g.q0 + 2 ≤ q
  | [], _, _, h => ⟨by simp, h.2.1⟩
  | x :: l, p, q, h => by
    obtain ⟨h1, h2, h3⟩ := h
    obtain ⟨k1, k2⟩ := Ordered.above l _ _ h3
    refine ⟨fun y hy => ?_, by omega⟩
    rcases List.mem_cons.mp hy with rfl | hy
    · exact k2
    · exact k1 y hy

/-- The innermost block is that block or one inside. -/
theorem top_of {g : Frame} {F l : List Frame} {p q Q : Nat} (h : Ordered (l ++ g :: F) p q) (hQ : Q ≤ g.q0) : ∃ t fs, l ++ g :: F = t :: fs ∧ Q ≤ t.q0 := by
  cases l with
  | nil => exact ⟨g, F, rfl, hQ⟩
  | cons x l => exact ⟨x, l ++ g :: F, rfl, by have := (Ordered.above (x :: l) p q h).1 x List.mem_cons_self; omega⟩

theorem Same.refl (f : Frame) : Same f f := rfl
theorem Same.trans {a b c : Frame} (h : Same a b) (k : Same b c) : Same a c := by
  unfold Same at *
  rw [k, h]
theorem same_refl : ∀ (l : List Frame), List.Forall₂ Same l l
  | [] => .nil
  | f :: l => .cons (Same.refl f) (same_refl l)
theorem same_trans : ∀ {a b c : List Frame}, List.Forall₂ Same a b → List.Forall₂ Same b c → List.Forall₂ Same a c
  | [], [], [], _, _ => .nil
  | _ :: _, _ :: _, _ :: _, .cons h hs, .cons k ks => .cons (h.trans k) (same_trans hs ks)

theorem same_set {f f' : Frame} (hs : Same f f') : ∀ (l : List Frame) (i : Nat), l[i]? = some f → List.Forall₂ Same l (l.set i f')
  | [], _, h => by simp at h
  | x :: l, 0, h => by
    simp only [List.getElem?_cons_zero, Option.some.injEq] at h
    subst h
    exact .cons hs (same_refl l)
  | x :: l, i + 1, h => by
    simp only [List.getElem?_cons_succ] at h
    exact .cons (Same.refl x) (same_set hs l i h)

/-- Replacing a block by one with the same names; one that is not the innermost changes its phase only. -/
theorem set_any {g : Frame} {F : List Frame} {f f' : Frame} (h1 : f'.q0 = f.q0) (h2 : f'.old = f.old) : ∀ (l : List Frame) (i : Nat), (l ++ g :: F)[i]? = some f → (i ≠ 0 → Same f f') →
    ∃ l' g' F', (l ++ g :: F).set i f' = l' ++ g' :: F' ∧ List.Forall₂ Same F F' ∧ l'.length = l.length ∧ g'.q0 = g.q0 ∧ g'.old = g.old
  | [], 0, h, _ => by
    simp only [List.nil_append, List.getElem?_cons_zero, Option.some.injEq] at h
    subst h
    exact ⟨[], f', F, rfl, same_refl F, rfl, h1, h2⟩
  | [], i + 1, h, hs => by
    simp only [List.nil_append, List.getElem?_cons_succ] at h
    exact ⟨[], g, F.set i f', rfl, same_set (hs (by omega)) F i h, rfl, rfl, rfl⟩
  | x :: l, 0, h, _ => ⟨f' :: l, g, F, rfl, same_refl F, rfl, rfl, rfl⟩
  | x :: l, i + 1, h, hs => by
    simp only [List.cons_append, List.getElem?_cons_succ] at h
    obtain ⟨l', g', F', a1, a2, a3, a4, a5⟩ := set_any h1 h2 l i h (fun _ => hs (by omega))
    exact ⟨x :: l', g', F', by simp only [List.cons_append, List.set_cons_succ, a1], a2, by simp [a3], a4, a5⟩

theorem Tabs.unique' {base : Table} : ∀ {fs fs' : List Frame} {t t' : Table}, List.Forall₂ Same fs fs' → Tabs base fs t → Tabs base fs' t' → t = t'
  | [], [], _, _, _, h, h' => h.trans h'.symm
  | f :: fs, f' :: fs', t, t', .cons hs hss, ⟨a, h1, _, h3⟩, ⟨b, k1, _, k3⟩ => by rw [h3, k3, hs.tab, Tabs.unique' hss h1 k1]

theorem SysOk.unique' {base : Name → Nat} : ∀ {fs fs' : List Frame} {a b : Name → Nat}, List.Forall₂ Same fs fs' → SysOk base fs a → SysOk base fs' b → a = b
  | [], [], _, _, _, h, h' => h.trans h'.symm
  | _ :: _, _ :: _, _, _, .cons hs _, h, h' => by rw [h.1, h'.1, hs.new]

/-- An event in a block leaves alone the blocks around it, the files, and what Python has printed before. -/
theorem body_step {m : Mach} {base : Table} {bsys : Name → Nat} {s s' : St} {as : List Acc} (hi : Inv base bsys s as) {e : Ev} (h : step m s e = some s') {l F : List Frame} {g : Frame}
    {Q d' : Nat} (hf : s.frames = l ++ g :: F) (hQ : Q ≤ g.q0) (hd : nesting l.length [e] = some d') :
    ∃ l' g' F', s'.frames = l' ++ g' :: F' ∧ List.Forall₂ Same F F' ∧ l'.length = d' ∧ g'.q0 = g.q0 ∧ g'.old = g.old ∧ s'.files = s.files ∧
      ∀ k < Q, textsOf (s'.streams k) = textsOf (s.streams k) := by
  have ord := hi.ordered
  rw [hf] at ord
  obtain ⟨t, fs, ht, htq⟩ := top_of ord hQ
  cases e with
  | py n x =>
    have hl : l.length = d' := by simpa [nesting] using hd
    simp only [step] at h
    split at h
    · cases h
    simp only [Option.some.injEq] at h
    subst h
    refine ⟨l, g, F, hf, same_refl F, hl, rfl, rfl, rfl, fun k hk => ?_⟩
    have := hi.sys
    rw [hf, ht] at this
    have hs : s.sys = t.new := this.1
    show textsOf (Function.update s.streams _ _ k) = _
    rw [hs, Function.update_of_ne]
    have := new_ge t n; omega
  | call g0 x =>
    have hl : l.length = d' := by simpa [nesting] using hd
    simp only [step] at h
    split at h
    · cases h
    simp only [Option.some.injEq] at h
    subst h
    exact ⟨l, g, F, hf, same_refl F, hl, rfl, rfl, rfl, fun k hk => rfl⟩
  | put n b =>
    have hl : l.length = d' := by simpa [nesting] using hd
    simp only [step] at h
    split at h
    · split at h
      · simp only [Option.some.injEq] at h
        subst h
        exact ⟨l, g, F, hf, same_refl F, hl, rfl, rfl, rfl, fun k hk => rfl⟩
      · cases h
    · cases h
  | drain n =>
    have hl : l.length = d' := by simpa [nesting] using hd
    simp only [step] at h
    split at h
    · cases h
    have htab := hi.tabs
    rw [hf, ht] at htab
    unfold drainTo at h
    rw [htab.target n] at h
    simp only at h
    split at h
    · simp only [Option.some.injEq] at h
      subst h
      exact ⟨l, g, F, hf, same_refl F, hl, rfl, rfl, rfl, fun k hk => rfl⟩
    · cases h
  | ret =>
    have hl : l.length = d' := by simpa [nesting] using hd
    simp only [step] at h
    split at h
    · simp only [Option.some.injEq] at h
      subst h
      exact ⟨l, g, F, hf, same_refl F, hl, rfl, rfl, rfl, fun k hk => rfl⟩
    · cases h
  | enter =>
    have hl : l.length + 1 = d' := by simpa [nesting] using hd
    simp only [step] at h
    split at h
    · cases h
    split at h
    · cases h
    rename_i f t hs
    simp only [Option.some.injEq] at h
    subst h
    obtain ⟨p1, p2⟩ := Tabs.open_ hi.open1 hi.open2 _ _ hi.tabs
    obtain ⟨k1, k2, k3, k4, k5, k6, k7, k8⟩ := setup_ok p1 p2 hs
    refine ⟨f :: l, g, F, by show f :: s.frames = _; rw [hf]; rfl, same_refl F, by simpa using hl, rfl, rfl, rfl, fun k hk => ?_⟩
    have h1 := new_ge f .out
    have h2 := new_ge f .err
    have h3 := (Ordered.above l _ _ ord).2
    show textsOf (Function.update (Function.update s.streams (f.new .out) []) (f.new .err) [] k) = textsOf (s.streams k)
    rw [Function.update_of_ne (by omega), Function.update_of_ne (by omega)]
  | finish =>
    have hl : l.length = d' := by simpa [nesting] using hd
    simp only [step] at h
    split at h
    · cases h
    split at h
    · cases h
    rename_i f fs' hf'
    simp only [Option.some.injEq] at h
    subst h
    rw [hf] at hf'
    obtain ⟨l', g', F', q1, q0, q2, q3, q4⟩ := set_any (f := f) (f' := { f with exiting := true }) rfl rfl l 0 (by rw [hf']; rfl) (fun h => absurd rfl h)
    refine ⟨l', g', F', ?_, q0, by omega, q3, q4, rfl, fun _ _ => rfl⟩
    rw [← q1, hf', List.set_cons_zero]
  | leave =>
    cases hl : l with
    | nil => rw [hl] at hd; simp [nesting] at hd
    | cons x l2 =>
      subst hl
      have hl : l2.length = d' := by simpa [nesting] using hd
      simp only [step] at h
      rw [hf] at h
      simp only [List.cons_append] at h
      split at h
      · simp only [Option.some.injEq] at h
        subst h
        exact ⟨l2, g, F, rfl, same_refl F, hl, rfl, rfl, rfl, fun _ _ => rfl⟩
      · cases h
  | thread i =>
    have hl : l.length = d' := by simpa [nesting] using hd
    simp only [step] at h
    split at h
    · cases h
    split at h
    · cases h
    rename_i f hg
    split at h
    · cases h
    have key : ∀ (f' : Frame), Same f f' → ∃ l' g' F', s.frames.set i f' = l' ++ g' :: F' ∧ List.Forall₂ Same F F' ∧ l'.length = d' ∧ g'.q0 = g.q0 ∧ g'.old = g.old := by
      intro f' hs
      obtain ⟨l', g', F', q1, q0, q2, q3, q4⟩ := set_any (f := f) (f' := f') hs.q0 hs.old l i (by rw [← hf]; exact hg) (fun _ => hs)
      exact ⟨l', g', F', by rw [hf]; exact q1, q0, by omega, q3, q4⟩
    have key0 : ∀ (f' : Frame), f'.q0 = f.q0 → f'.old = f.old → (f.exiting = true ∨ f.draining = true) → ∃ l' g' F', s.frames.set i f' = l' ++ g' :: F' ∧ List.Forall₂ Same F F' ∧ l'.length = d' ∧
        g'.q0 = g.q0 ∧ g'.old = g.old := by
      intro f' h1 h2 he
      obtain ⟨rfl, _, _⟩ := index_zero hi.top hg he
      obtain ⟨l', g', F', q1, q0, q2, q3, q4⟩ := set_any (f := f) (f' := f') h1 h2 l 0 (by rw [← hf]; exact hg) (fun h => absurd rfl h)
      exact ⟨l', g', F', by rw [hf]; exact q1, q0, by omega, q3, q4⟩
    unfold threadStep at h
    split at h
    · split_ifs at h
      simp only [Option.some.injEq] at h
      subst h
      obtain ⟨l', g', F', a1, a2, a3, a4, a5⟩ := key { f with phase := .flush .err } rfl
      exact ⟨l', g', F', a1, a2, a3, a4, a5, rfl, fun _ _ => rfl⟩
    · split_ifs at h
      simp only [Option.some.injEq] at h
      subst h
      obtain ⟨l', g', F', a1, a2, a3, a4, a5⟩ := key { f with phase := .select } rfl
      exact ⟨l', g', F', a1, a2, a3, a4, a5, rfl, fun _ _ => rfl⟩
    · split at h
      · split_ifs at h with hdr
        · simp only [Option.some.injEq] at h
          subst h
          obtain ⟨l', g', F', a1, a2, a3, a4, a5⟩ := key0 { f with done := true } rfl rfl (.inr hdr)
          exact ⟨l', g', F', a1, a2, a3, a4, a5, rfl, fun _ _ => rfl⟩
        · simp only [Option.some.injEq] at h
          subst h
          obtain ⟨l', g', F', a1, a2, a3, a4, a5⟩ := key { f with phase := .flush .out } rfl
          exact ⟨l', g', F', a1, a2, a3, a4, a5, rfl, fun _ _ => rfl⟩
      · simp only [Option.some.injEq] at h
        subst h
        obtain ⟨l', g', F', a1, a2, a3, a4, a5⟩ := key { f with phase := .handle (ready s f) } rfl
        exact ⟨l', g', F', a1, a2, a3, a4, a5, rfl, fun _ _ => rfl⟩
    · simp only [Option.some.injEq] at h
      subst h
      obtain ⟨l', g', F', a1, a2, a3, a4, a5⟩ := key { f with phase := .flush .out } rfl
      exact ⟨l', g', F', a1, a2, a3, a4, a5, rfl, fun _ _ => rfl⟩
    · rename_i r hph
      simp only [Option.some.injEq] at h
      subst h
      have hex := ((hi.ph f (List.mem_of_getElem? hg) _ hph).2.1 List.mem_cons_self).1
      obtain ⟨l', g', F', a1, a2, a3, a4, a5⟩ := key0 { f with draining := true, phase := .handle r } rfl rfl (.inl hex)
      exact ⟨l', g', F', a1, a2, a3, a4, a5, rfl, fun _ _ => rfl⟩
    · rename_i n r hph
      split_ifs at h with hne
      simp only [Option.some.injEq] at h
      subst h
      obtain ⟨l', g', F', a1, a2, a3, a4, a5⟩ := key { f with phase := .handle r } rfl
      refine ⟨l', g', F', a1, a2, a3, a4, a5, rfl, fun k hk => ?_⟩
      show textsOf (Function.update s.streams _ _ k) = _
      by_cases hk : k = f.new n
      · subst hk
        rw [Function.update_self, textsOf_append]
        simp [textsOf]
      · rw [Function.update_of_ne hk]

theorem body_run {m : Mach} {base : Table} {bsys : Name → Nat} : ∀ (es : List Ev) (s s' : St) (as : List Acc), Inv base bsys s as → run m s es = some s' →
    ∀ (l F : List Frame) (g : Frame) (Q d' : Nat), s.frames = l ++ g :: F → Q ≤ g.q0 → nesting l.length es = some d' →
    ∃ l' g' F', s'.frames = l' ++ g' :: F' ∧ List.Forall₂ Same F F' ∧ l'.length = d' ∧ g'.q0 = g.q0 ∧ g'.old = g.old ∧ s'.files = s.files ∧
      ∀ k < Q, textsOf (s'.streams k) = textsOf (s.streams k)
  | [], s, s', as, hi, h, l, F, g, Q, d', hf, hQ, hd => by
    simp only [run, Option.some.injEq] at h
    subst h
    exact ⟨l, g, F, hf, same_refl F, by simpa [nesting] using hd, rfl, rfl, rfl, fun _ _ => rfl⟩
  | e :: es, s, s', as, hi, h, l, F, g, Q, d', hf, hQ, hd => by
    simp only [run] at h
    rw [nesting_cons] at hd
    cases hs : step m s e with
    | none => rw [hs] at h; cases h
    | some s1 =>
      rw [hs] at h
      cases hn : nesting l.length [e] with
      | none => rw [hn] at hd; cases hd
      | some d1 =>
        rw [hn] at hd
        obtain ⟨l1, g1, F1, a1, a0, a2, a3, a4, a5, a6⟩ := body_step hi hs hf hQ hn
        obtain ⟨l2, g2, F2, b1, b0, b2, b3, b4, b5, b6⟩ := body_run es s1 s' _ (inv_step m base bsys s s1 as hi e hs) h l1 F1 g1 Q d' a1 (by omega) (by rw [a2]; exact hd)
        exact ⟨l2, g2, F2, b1, same_trans a0 b0, b2, b3.trans a3, b4.trans a4, b5.trans a5, fun k hk => (b6 k hk).trans (a6 k hk)⟩

theorem printed_step (l as : List Acc) (e : Ev) (d d' : Nat) (hl : l.length = d + 1) (hd : nesting d [e] = some d') :
    printed (l ++ as) e = printed l e ++ as ∧ (printed l e).length = d' + 1 := by
  cases l with
  | nil => cases hl
  | cons a l =>
    simp only [List.length_cons, Nat.add_right_cancel_iff] at hl
    cases e <;> try (simp only [nesting, Option.some.injEq] at hd; subst hd; exact ⟨rfl, by simp [printed, hl]⟩)
    cases d with
    | zero => simp [nesting] at hd
    | succ d =>
      simp only [nesting, Option.some.injEq] at hd
      subst hd
      exact ⟨rfl, by simp [printed, hl]⟩

theorem printed_run : ∀ (es : List Ev) (l as : List Acc) (d d' : Nat), l.length = d + 1 → nesting d es = some d' →
    es.foldl printed (l ++ as) = es.foldl printed l ++ as ∧ (es.foldl printed l).length = d' + 1
  | [], l, as, d, d', hl, hd => by
    simp only [nesting, Option.some.injEq] at hd
    subst hd
    exact ⟨rfl, hl⟩
  | e :: es, l, as, d, d', hl, hd => by
    rw [nesting_cons] at hd
    cases hn : nesting d [e] with
    | none => rw [hn] at hd; cases hd
    | some d1 =>
      rw [hn] at hd
      obtain ⟨a1, a2⟩ := printed_step l as e d d1 hl hn
      simp only [List.foldl_cons, a1]
      exact printed_run es (printed l e) as d1 d' a2 hd

theorem run_append (m : Mach) : ∀ (a b : List Ev) (s s' : St), run m s (a ++ b) = some s' → ∃ s1, run m s a = some s1 ∧ run m s1 b = some s'
  | [], _, s, _, h => ⟨s, rfl, h⟩
  | e :: a, b, s, s', h => by
    simp only [List.cons_append, run] at h ⊢
    cases hs : step m s e with
    | none => rw [hs] at h; cases h
    | some s1 =>
      rw [hs] at h
      exact run_append m a b s1 s' h

/-- A process without open blocks has the invariant. -/
theorem inv_start (s : St) (h1 : s.fds 1 ≠ none) (h2 : s.fds 2 ≠ none) (hf : s.frames = []) : Inv s.fds s.sys s [] := by
  refine ⟨h1, h2, ?_, ?_, ?_, ?_, ?_, by rw [hf]; simp⟩
  · rw [hf]; rfl
  · rw [hf]; trivial
  · rw [hf]; rfl
  · rw [hf]; trivial
  · unfold Top; rw [hf]; trivial

theorem inv_block (m : Mach) (base : Table) (bsys : Name → Nat) (s0 s3 : St) (as : List Acc) (hi : Inv base bsys s0 as) (body : List Ev) (hn : nesting 0 body = some 0)
    (h : run m s0 (.enter :: (body ++ [.leave])) = some s3) :
    s3.fds = s0.fds ∧ s3.sys = s0.sys ∧ List.Forall₂ Same s0.frames s3.frames ∧ s3.files = s0.files ∧ s3.call = none ∧ (∀ n, s3.buf n = []) ∧
    (∀ k < s0.nstreams, textsOf (s3.streams k) = textsOf (s0.streams k)) ∧
    bytesOf (s3.streams s0.nstreams) = (own body).bytes .out ∧ bytesOf (s3.streams (s0.nstreams + 1)) = (own body).bytes .err ∧
    textsOf (s3.streams s0.nstreams) = (own body).texts .out ∧ textsOf (s3.streams (s0.nstreams + 1)) = (own body).texts .err := by
  simp only [run] at h
  cases he : step m s0 .enter with
  | none => rw [he] at h; cases h
  | some s1 =>
    rw [he] at h
    obtain ⟨s2, r1, r2⟩ := run_append m body [.leave] s1 s3 h
    have i1 := inv_step m base bsys s0 s1 as hi .enter he
    have hp : printed as .enter = [Acc.empty] ++ as := by cases as <;> rfl
    rw [hp] at i1
    have i2 := inv_run m base bsys body s1 s2 _ i1 r1
    obtain ⟨pr, pl⟩ := printed_run body [Acc.empty] as 0 0 rfl hn
    rw [pr] at i2
    have hl : step m s2 .leave = some s3 := by
      simp only [run] at r2
      cases hl : step m s2 .leave with
      | none => rw [hl] at r2; cases r2
      | some x => rw [hl] at r2; simpa [run] using r2
    have i3 := inv_step m base bsys s2 s3 _ i2 .leave hl
    obtain ⟨a, ha⟩ := List.length_eq_one_iff.mp pl
    have hown : own body = a := by unfold own; rw [ha]; rfl
    rw [ha] at i2 i3
    -- the block
    have e1 : ∃ f, s1.frames = f :: s0.frames ∧ f.q0 = s0.nstreams ∧ f.old = s0.sys ∧ s1.files = s0.files ∧ ∀ k < s0.nstreams, s1.streams k = s0.streams k := by
      simp only [step] at he
      split at he
      · cases he
      split at he
      · cases he
      rename_i f t hs
      simp only [Option.some.injEq] at he
      subst he
      obtain ⟨p1, p2⟩ := Tabs.open_ hi.open1 hi.open2 _ _ hi.tabs
      obtain ⟨k1, k2, k3, k4, k5, k6, k7, k8⟩ := setup_ok p1 p2 hs
      refine ⟨f, rfl, k4, k5, rfl, fun k hk => ?_⟩
      have h1 := new_ge f .out
      have h2 := new_ge f .err
      show Function.update (Function.update s0.streams (f.new .out) []) (f.new .err) [] k = s0.streams k
      rw [Function.update_of_ne (by omega), Function.update_of_ne (by omega)]
    obtain ⟨f, f1, f2, f3, f4, f5⟩ := e1
    obtain ⟨l', g, F', g1, g0, g2, g3, g4, g5, g6⟩ := body_run body s1 s2 _ i1 r1 [] s0.frames f s0.nstreams 0 f1 (by omega) hn
    rw [List.length_eq_zero_iff.mp g2, List.nil_append] at g1
    simp only [step, g1] at hl
    split at hl
    · rename_i hdone
      have top := i2.top
      unfold Top at top
      rw [g1] at top
      simp only at top
      obtain ⟨hbuf, hcall⟩ := top.2.2.2.1 (top.1 (top.2.1 hdone))
      have hpipe := top.2.2.2.2 hdone
      simp only [Option.some.injEq] at hl
      have d2 := i2.data
      rw [g1] at d2
      have t3 := i3.tabs
      have y3 := i3.sys
      have hfr : s3.frames = F' := by rw [← hl]
      rw [hfr] at t3 y3
      have hst : s3.streams = s2.streams := by rw [← hl]
      have hd := d2.1
      have key : ∀ n, bytesOf (s3.streams (g.new n)) = (own body).bytes n ∧ textsOf (s3.streams (g.new n)) = (own body).texts n := by
        intro n
        obtain ⟨x1, x2⟩ := hd n
        rw [hpipe n, hbuf n, List.append_nil, List.append_nil] at x1
        rw [hst, hown]
        exact ⟨x1, x2⟩
      have n1 : g.new .out = s0.nstreams := by show g.q0 = _; omega
      have n2 : g.new .err = s0.nstreams + 1 := by show g.q0 + 1 = _; omega
      refine ⟨(Tabs.unique' g0 hi.tabs t3).symm, (SysOk.unique' g0 hi.sys y3).symm, by rw [hfr]; exact g0, ?_, ?_, ?_, ?_, ?_, ?_, ?_, ?_⟩
      · rw [← hl]; exact g5.trans f4
      · rw [← hl]; exact hcall
      · rw [← hl]; exact hbuf
      · intro k hk
        rw [hst, g6 k hk, f5 k hk]
      · rw [← n1]; exact (key .out).1
      · rw [← n2]; exact (key .err).1
      · rw [← n1]; exact (key .out).2
      · rw [← n2]; exact (key .err).2
    · cases hl

/-- C138: a process without open blocks runs in any way, `before` of which some blocks may still be open; then a block begins, and ends after `body`, in which threads take
turns in any order, other blocks may begin and end, and which may end with an exception. Then descriptors, `sys.stdout`, `sys.stderr` and the blocks around it are what they were, no byte has
come to a file, nothing of Python to an older stream, and the two streams of the block have the bytes and the texts that the body printed itself, in the order of printing. -/
theorem block (m : Mach) (s s0 s3 : St) (h1 : s.fds 1 ≠ none) (h2 : s.fds 2 ≠ none) (hf : s.frames = []) (before body : List Ev) (hb : run m s before = some s0)
    (hn : nesting 0 body = some 0) (h : run m s0 (.enter :: (body ++ [.leave])) = some s3) :
    s3.fds = s0.fds ∧ s3.sys = s0.sys ∧ List.Forall₂ Same s0.frames s3.frames ∧ s3.files = s0.files ∧ s3.call = none ∧ (∀ n, s3.buf n = []) ∧
    (∀ k < s0.nstreams, textsOf (s3.streams k) = textsOf (s0.streams k)) ∧
    bytesOf (s3.streams s0.nstreams) = (own body).bytes .out ∧ bytesOf (s3.streams (s0.nstreams + 1)) = (own body).bytes .err ∧
    textsOf (s3.streams s0.nstreams) = (own body).texts .out ∧ textsOf (s3.streams (s0.nstreams + 1)) = (own body).texts .err :=
  inv_block m s.fds s.sys s0 s3 _ (inv_run m s.fds s.sys before s s0 [] (inv_start s h1 h2 hf) hb) body hn h

end NBK.Capture
