import Verif.ConvObj.Model
import Verif.Convpower.Props
import Verif.FftObj.DefaultProps
import Verif.Binned.Props

/-!
# Properties of the object `ConvolvedFFTPower`
-/
set_option linter.unusedSimpArgs false
namespace NBK.ConvObj
open NBK

variable {n : Nat} {K : Type} [CommRing K]

/-! ## Casting and checks -/

/-- C109: what a source becomes. -/
theorem cast_spec (h : Heap) (nm : Option (FftObj.Dim Nat)) (s : Src) (hw : ∀ m ∈ h, m.nmesh.length = 3)
    (hc : ∀ c l, s = .catalog c → c.nmesh = some l → l.length = 3) (h' : Heap) (r : Nat) (hk : castMesh h nm s = .ok (h', r)) :
    ∃ m, h'[r]? = some m ∧ (∀ d, nm = some d → m.nmesh = d.three) ∧
      ((∃ i, s = .mesh i ∧ r = i ∧ h' = h) ∨
       (∃ c b, s = .catalog c ∧ r = h.length ∧ h' = h ++ [m] ∧ m.source = c.id ∧ m.nbar = c.nbar ∧ c.bbox = .ok b ∧ m.boxSize = b.1 ∧
        m.boxCenter = b.2 ∧ m.pmBox = b.1 ∧ m.resampler = "cic" ∧ m.interlaced = false ∧ (nm = none → c.nmesh = some m.nmesh))) := by
  unfold castMesh at hk
  cases s with
  | other => cases hk
  | mesh i =>
    dsimp only at hk
    split at hk
    · cases hk
    rename_i m hm
    split at hk
    · cases hk
    rename_i hmm
    simp only [Except.ok.injEq, Prod.mk.injEq] at hk
    obtain ⟨rfl, rfl⟩ := hk
    refine ⟨m, hm, ?_, .inl ⟨_, rfl, rfl, rfl⟩⟩
    exact (FftObj.mismatch_iff m.nmesh (hw m (List.mem_of_getElem? hm)) nm).mp (by simpa using hmm)
  | catalog c =>
    dsimp only at hk
    unfold toMesh at hk
    split at hk
    · cases hk
    split at hk
    · cases hk
    rename_i nn hn
    cases hb : c.bbox with
    | error _ => simp [hb, Except.bind] at hk
    | ok b =>
      simp only [hb, Except.bind] at hk
      split at hk
      · cases hk
      rename_i hmm
      simp only [Except.ok.injEq, Prod.mk.injEq] at hk
      obtain ⟨rfl, rfl⟩ := hk
      have h3 : nn.length = 3 := by
        cases nm with
        | none => exact hc c nn rfl (by simpa using hn)
        | some d => simp at hn; rw [← hn]; exact FftObj.three_length d
      refine ⟨_, List.getElem?_concat_length, ?_, .inr ⟨c, b, rfl, rfl, rfl, rfl, rfl, hb, rfl, rfl, rfl, rfl, rfl, ?_⟩⟩
      · exact (FftObj.mismatch_iff nn h3 nm).mp (by simpa using hmm)
      · intro h0; subst h0; simpa using hn

/-- C109: the errors of casting. -/
theorem cast_errors (h : Heap) (nm : Option (FftObj.Dim Nat)) :
    castMesh h nm .other = .error .typeError ∧
    (∀ r m, h[r]? = some m → m.nmesh.length = 3 → (∃ d, nm = some d ∧ m.nmesh ≠ d.three) → castMesh h nm (.mesh r) = .error .valueError) ∧
    (∀ c, "FKPWeight" ∉ c.columns ∨ "Weight" ∉ c.columns → castMesh h nm (.catalog c) = .error .valueError) ∧
    (∀ c, nm = none → c.nmesh = none → castMesh h nm (.catalog c) = .error .valueError) := by
  refine ⟨rfl, ?_, ?_, ?_⟩
  · intro r m hm h3 ⟨d, hd, hne⟩
    have : FftObj.mismatch m.nmesh nm = true := by
      by_contra hc
      exact hne ((FftObj.mismatch_iff m.nmesh h3 nm).mp (by simpa using hc) d hd)
    simp [castMesh, hm, this]
  · intro c hc
    have : ¬ ("FKPWeight" ∈ c.columns ∧ "Weight" ∈ c.columns) := by tauto
    simp only [castMesh, toMesh, if_pos this, Except.bind]
  · intro c hn hc
    simp only [castMesh, toMesh, hn, hc, Option.map_none, Option.none_or]
    split <;> rfl

theorem valid_iff (m1 m2 : Mesh) : validCross m1 m2 = true ↔
    m2.source = m1.source ∧ m2.selection = m1.selection ∧ m2.compWeight = m1.compWeight ∧ m2.nbar = m1.nbar := by
  unfold validCross Fkp.isValidCrosscorr
  dsimp only
  split
  · simp_all
  · split
    · simp_all
      tauto
    · simp_all

/-- C109: the order of the checks, none of which changes a mesh: deprecated keywords, the sources one after the other, then whether the two meshes are
of the same catalog with the same columns of selection, completeness and density; the weights may differ. -/
theorem checks (e : Env n K) (h : Heap) (g : Args) :
    (g.deprecated = true → new e h g = (h, .error .valueError)) ∧
    (g.deprecated = false → ∀ x, castMesh h g.nmesh g.first = .error x → new e h g = (h, .error x)) ∧
    (g.deprecated = false → ∀ h1 r1 x s, castMesh h g.nmesh g.first = .ok (h1, r1) → g.second = some s → castMesh h1 g.nmesh s = .error x →
      new e h g = (h1, .error x)) ∧
    (∀ i j m1 m2, g.deprecated = false → g.nmesh = none → g.first = .mesh i → g.second = some (.mesh j) → h[i]? = some m1 → h[j]? = some m2 →
      ¬ (m2.source = m1.source ∧ m2.selection = m1.selection ∧ m2.compWeight = m1.compWeight ∧ m2.nbar = m1.nbar) →
      new e h g = (h, .error .notImplemented)) := by
  refine ⟨fun hd => by simp [new, hd], fun hd x hx => by simp [new, hd, hx], ?_, ?_⟩
  · intro hd h1 r1 x s hx hs hx2
    simp [new, hd, hx, hs, castSecond, hx2]
  · intro i j m1 m2 hd hn hf hs h1 h2 hv
    have hv' : validCross m1 m2 = false := by
      rw [← Bool.not_eq_true, valid_iff]; exact hv
    simp [new, hd, castMesh, castSecond, hn, hf, hs, h1, h2, FftObj.mismatch, hv']

/-- C109: the compensation is chosen by the window and the interlacing only, and there is one exactly for the three windows. -/
theorem compensation_spec (m : Mesh) :
    (compensation m = none ↔ m.resampler ∉ ["cic", "tsc", "pcs"]) ∧ compensation (clearMesh m) = compensation m ∧
    ∀ a c, compensation { m with compensated := c, actions := a } = compensation m := by
  refine ⟨?_, rfl, fun _ _ => rfl⟩
  unfold compensation
  cases m.interlaced <;> simp only [if_true, if_false, Bool.false_eq_true] <;> split <;> simp_all <;> split <;> simp_all <;> split <;> simp_all

/-! ## What happens to the meshes of the caller -/

theorem update_get (h : Heap) (r i : Nat) (f : Mesh → Mesh) : (update h r f)[i]? = if r = i then h[i]?.map f else h[i]? := by
  unfold update
  rw [List.getElem?_modify]
  split <;> rename_i hr
  · rfl
  · cases h[i]? <;> rfl

theorem join_get (h : Heap) (r1 r2 i : Nat) (m1 m2 : Mesh) :
    (join h r1 r2 m1 m2)[i]? = if m1.boxSize = m2.boxSize ∨ (i ≠ r1 ∧ i ≠ r2) then h[i]? else h[i]?.map (recenter (jointBox m1 m2)) := by
  unfold join
  by_cases hb : m1.boxSize = m2.boxSize
  · simp [hb]
  · simp only [hb, if_false, false_or, update_get]
    by_cases h1 : r1 = i <;> by_cases h2 : r2 = i
    · subst h1 h2
      simp only [if_true, ne_eq, not_true_eq_false, and_self, if_false]
      cases h[r2]? <;> rfl
    · subst h1; simp [h2]
    · subst h2; simp [h1]
    · simp [h1, h2, Ne.symm h1, Ne.symm h2, eq_comm]

theorem clear_get (h : Heap) (r1 r2 i : Nat) : (clear h r1 r2)[i]? = if i = r1 ∨ i = r2 then h[i]?.map clearMesh else h[i]? := by
  unfold clear
  simp only [update_get]
  by_cases h1 : r1 = i <;> by_cases h2 : r2 = i
  · subst h1 h2
    simp only [if_true, or_self]
    cases h[r2]? <;> rfl
  · subst h1; simp [h2]
  · subst h2; simp [h1]
  · simp [h1, h2, Ne.symm h1, Ne.symm h2]

/-- A mesh that differs only in the box and the flags of painting. -/
def SameBut (m m' : Mesh) : Prop :=
  m' = { m with boxSize := m'.boxSize, boxCenter := m'.boxCenter, actions := m'.actions, compensated := m'.compensated }

theorem cast_prefix (h : Heap) (nm : Option (FftObj.Dim Nat)) (s : Src) (h' : Heap) (r : Nat) (hk : castMesh h nm s = .ok (h', r)) :
    r < h'.length ∧ (∀ (i : Nat) (m : Mesh), h[i]? = some m → h'[i]? = some m) ∧ ((∃ i, s = .mesh i ∧ r = i ∧ h' = h) ∨ ((∀ i, s ≠ .mesh i) ∧ r = h.length)) := by
  unfold castMesh at hk
  cases s with
  | other => cases hk
  | mesh i =>
    dsimp only at hk
    split at hk
    · cases hk
    rename_i m hm
    split at hk
    · cases hk
    simp only [Except.ok.injEq, Prod.mk.injEq] at hk
    obtain ⟨rfl, rfl⟩ := hk
    exact ⟨(List.getElem?_eq_some_iff.mp hm).1, fun _ _ h => h, .inl ⟨_, rfl, rfl, rfl⟩⟩
  | catalog c =>
    dsimp only at hk
    cases ht : toMesh c nm with
    | error _ => simp [ht, Except.bind] at hk
    | ok m =>
      simp only [ht, Except.bind] at hk
      split at hk
      · cases hk
      simp only [Except.ok.injEq, Prod.mk.injEq] at hk
      obtain ⟨rfl, rfl⟩ := hk
      refine ⟨by simp, ?_, .inr ⟨fun i => by simp, rfl⟩⟩
      intro i m' hm
      rw [List.getElem?_append_left (List.getElem?_eq_some_iff.mp hm).1]
      exact hm

theorem second_prefix (h : Heap) (nm : Option (FftObj.Dim Nat)) (s : Option Src) (r1 : Nat) (hr1 : r1 < h.length) (h' : Heap) (r : Nat)
    (hk : castSecond h nm r1 s = .ok (h', r)) :
    r < h'.length ∧ (∀ (i : Nat) (m : Mesh), h[i]? = some m → h'[i]? = some m) ∧
      ((s = none ∧ r = r1 ∧ h' = h) ∨ (∃ i, s = some (.mesh i) ∧ r = i ∧ h' = h) ∨ ((∀ i, s ≠ some (.mesh i)) ∧ s ≠ none ∧ r = h.length)) := by
  cases s with
  | none =>
    simp only [castSecond, Except.ok.injEq, Prod.mk.injEq] at hk
    obtain ⟨rfl, rfl⟩ := hk
    exact ⟨hr1, fun _ _ h => h, .inl ⟨rfl, rfl, rfl⟩⟩
  | some s =>
    obtain ⟨a, b, c⟩ := cast_prefix h nm s h' r hk
    refine ⟨a, b, ?_⟩
    rcases c with ⟨i, rfl, c⟩ | ⟨c, d⟩
    · exact .inr (.inl ⟨i, rfl, c⟩)
    · exact .inr (.inr ⟨fun i => by simpa using c i, by simp, d⟩)

/-- After the checks. -/
theorem new_cases (e : Env n K) (h : Heap) (g : Args) :
    (∃ (h2 : Heap) (x : Err), new e h g = (h2, .error x) ∧ ∀ (i : Nat) (m : Mesh), h[i]? = some m → h2[i]? = some m) ∨
    (∃ (h1 h2 : Heap) (r1 r2 : Nat) (m1 m2 : Mesh), castMesh h g.nmesh g.first = .ok (h1, r1) ∧ castSecond h1 g.nmesh r1 g.second = .ok (h2, r2) ∧
      (∀ (i : Nat) (m : Mesh), h[i]? = some m → h2[i]? = some m) ∧ h2[r1]? = some m1 ∧ h2[r2]? = some m2 ∧ validCross m1 m2 = true ∧ m2.comm = m1.comm ∧
      g.deprecated = false ∧ new e h g = build e g h2 r1 r2 m1 m2) := by
  unfold new
  by_cases hd : g.deprecated = true
  · rw [if_pos hd]; exact .inl ⟨h, _, rfl, fun _ _ h => h⟩
  rw [if_neg hd]
  cases hc : castMesh h g.nmesh g.first with
  | error x => exact .inl ⟨h, x, rfl, fun _ _ h => h⟩
  | ok p =>
    obtain ⟨h1, r1⟩ := p
    obtain ⟨a1, a2, a3⟩ := cast_prefix _ _ _ _ _ hc
    dsimp only
    cases hs : castSecond h1 g.nmesh r1 g.second with
    | error x => exact .inl ⟨h1, x, rfl, a2⟩
    | ok p =>
      obtain ⟨h2, r2⟩ := p
      obtain ⟨b1, b2, b3⟩ := second_prefix _ _ _ _ a1 _ _ hs
      have hp : ∀ (i : Nat) (m : Mesh), h[i]? = some m → h2[i]? = some m := fun i m hm => b2 i m (a2 i m hm)
      dsimp only
      have hm1 : h2[r1]? = some h1[r1] := b2 r1 _ (List.getElem?_eq_getElem a1)
      rw [hm1, List.getElem?_eq_getElem b1]
      dsimp only
      by_cases hv : validCross h1[r1] h2[r2] = true
      · rw [if_neg (by simp [hv])]
        by_cases hco : h2[r2].comm = h1[r1].comm
        · rw [if_neg (by simp [hco])]
          exact .inr ⟨h1, h2, r1, r2, _, _, rfl, hs, hp, hm1, List.getElem?_eq_getElem b1, hv, hco, by simpa using hd, rfl⟩
        · rw [if_pos hco]; exact .inl ⟨h2, _, rfl, hp⟩
      · rw [if_pos (by simp [hv])]; exact .inl ⟨h2, _, rfl, hp⟩

/-- `build` once the meshes are there. -/
theorem build_eq (e : Env n K) (g : Args) (h : Heap) (r1 r2 : Nat) (m1 m2 : Mesh) (h1 : h[r1]? = some m1) (h2 : h[r2]? = some m2) :
    build e g h r1 r2 m1 m2 =
      (let f := fun m => if m1.boxSize = m2.boxSize then m else recenter (jointBox m1 m2) m
       let a : Attrs := ⟨g.poles.list, g.dk, g.kmin, g.kmax, m1.nmesh, (f m1).boxSize, m1.boxPad, (f m1).boxCenter, m1.resampler, m1.interlaced⟩
       match kBins e m1 a with
       | .error x => (join h r1 r2 m1 m2, .error x)
       | .ok bins => (clear (join h r1 r2 m1 m2) r1 r2, (compute e (r1 = r2) (clearMesh (f m1)) (clearMesh (f m2)) a bins.1).bind fun t =>
          (lift (Binned.init ["k"] [bins.1] [bins.1.length - 1] t.2 ["modes"] (some [bins.2]) (some t.1))).bind fun p =>
          .ok ⟨t.1, p, some bins.1⟩)) := by
  unfold build
  dsimp only
  rw [join_get, join_get, h1, h2]
  by_cases hb : m1.boxSize = m2.boxSize
  · simp [hb] <;> rfl
  · simp [hb] <;> rfl

theorem build_heap (e : Env n K) (g : Args) (h : Heap) (r1 r2 : Nat) (m1 m2 : Mesh) (h1 : h[r1]? = some m1) (h2 : h[r2]? = some m2) :
    (build e g h r1 r2 m1 m2).1 = join h r1 r2 m1 m2 ∨ (build e g h r1 r2 m1 m2).1 = clear (join h r1 r2 m1 m2) r1 r2 := by
  rw [build_eq e g h r1 r2 m1 m2 h1 h2]
  dsimp only
  split
  · exact .inl rfl
  · exact .inr rfl

/-- C109: whatever happens, a mesh that was not passed is not changed, and no mesh is lost; of one that was passed only the box and the flags of
painting can change. -/
theorem frame (e : Env n K) (h : Heap) (g : Args) (i : Nat) (m : Mesh) (hm : h[i]? = some m) :
    ∃ m', (new e h g).1[i]? = some m' ∧ SameBut m m' ∧ (g.first ≠ .mesh i → g.second ≠ some (.mesh i) → m' = m) := by
  rcases new_cases e h g with ⟨h2, x, he, hp⟩ | ⟨h1, h2, r1, r2, m1, m2, hc, hs, hp, hm1, hm2, hv, hco, hd, he⟩
  · exact ⟨m, by rw [he]; exact hp i m hm, rfl, fun _ _ => rfl⟩
  · rw [he]
    obtain ⟨a1, a2, a3⟩ := cast_prefix _ _ _ _ _ hc
    obtain ⟨b1, b2, b3⟩ := second_prefix _ _ _ _ a1 _ _ hs
    have hi : i < h.length := (List.getElem?_eq_some_iff.mp hm).1
    have hi1 : i < h1.length := (List.getElem?_eq_some_iff.mp (a2 i m hm)).1
    have hr1 : g.first ≠ .mesh i → i ≠ r1 := by
      rintro hf rfl
      rcases a3 with ⟨j, hj, rfl, _⟩ | ⟨_, hj⟩
      · exact hf hj
      · omega
    have hr2 : g.first ≠ .mesh i → g.second ≠ some (.mesh i) → i ≠ r2 := by
      rintro hf hs' rfl
      rcases b3 with ⟨_, hj, _⟩ | ⟨j, hj, rfl, _⟩ | ⟨_, _, hj⟩
      · exact hr1 hf hj
      · exact hs' hj
      · omega
    have hj : ∃ m', (join h2 r1 r2 m1 m2)[i]? = some m' ∧ SameBut m m' ∧ (i ≠ r1 → i ≠ r2 → m' = m) := by
      rw [join_get, hp i m hm]
      split
      · exact ⟨m, rfl, rfl, fun _ _ => rfl⟩
      · rename_i hx
        refine ⟨recenter (jointBox m1 m2) m, rfl, rfl, fun h1 h2 => ?_⟩
        exact absurd (.inr ⟨h1, h2⟩) hx
    obtain ⟨m', j1, j2, j3⟩ := hj
    rcases build_heap e g h2 r1 r2 m1 m2 hm1 hm2 with hh | hh
    · exact ⟨m', by rw [hh]; exact j1, j2, fun f s => j3 (hr1 f) (hr2 f s)⟩
    · rw [hh, clear_get, j1]
      split
      · rename_i hx
        refine ⟨clearMesh m', rfl, ?_, fun f s => ?_⟩
        · unfold SameBut at j2 ⊢
          rw [j2]; rfl
        · rcases hx with hx | hx
          · exact absurd hx (hr1 f)
          · exact absurd hx (hr2 f s)
      · exact ⟨m', rfl, j2, fun f s => j3 (hr1 f) (hr2 f s)⟩

/-- C109: when it succeeds, a mesh that was passed has lost its actions and its `compensated` flag. -/
theorem cleared (e : Env n K) (h : Heap) (g : Args) (h' : Heap) (o : Obj) (hk : new e h g = (h', .ok o)) (i : Nat)
    (hi : g.first = .mesh i ∨ g.second = some (.mesh i)) : ∃ m', h'[i]? = some m' ∧ m'.actions = [] ∧ m'.compensated = false := by
  rcases new_cases e h g with ⟨h2, x, he, hp⟩ | ⟨h1, h2, r1, r2, m1, m2, hc, hs, hp, hm1, hm2, hv, hco, hd, he⟩
  · rw [he] at hk; cases hk
  obtain ⟨a1, a2, a3⟩ := cast_prefix _ _ _ _ _ hc
  obtain ⟨b1, b2, b3⟩ := second_prefix _ _ _ _ a1 _ _ hs
  have hr : i = r1 ∨ i = r2 := by
    rcases hi with hi | hi
    · left
      rcases a3 with ⟨j, hj, rfl, _⟩ | ⟨hj, _⟩
      · rw [hi] at hj; cases hj; rfl
      · exact absurd hi (hj i)
    · right
      rcases b3 with ⟨hj, _⟩ | ⟨j, hj, rfl, _⟩ | ⟨hj, _⟩
      · rw [hi] at hj; cases hj
      · rw [hi] at hj; cases hj; rfl
      · exact absurd hi (hj i)
  rw [he, build_eq e g h2 r1 r2 m1 m2 hm1 hm2] at hk
  dsimp only at hk
  split at hk
  · cases hk
  simp only [Prod.mk.injEq] at hk
  rw [← hk.1, clear_get, if_pos hr, join_get]
  have : ∃ m, h2[i]? = some m := by rcases hr with rfl | rfl <;> exact ⟨_, by assumption⟩
  obtain ⟨m, hm⟩ := this
  rw [hm]
  split <;> exact ⟨_, rfl, rfl, rfl⟩

theorem bind_ok {α β : Type} {x : Except Err α} {f : α → Except Err β} {y : β} (h : x.bind f = .ok y) : ∃ a, x = .ok a ∧ f a = .ok y := by
  cases x with
  | error _ => cases h
  | ok a => exact ⟨a, rfl, h⟩

/-- What it takes to compute, and what comes out. -/
theorem compute_ok (e : Env n K) (auto : Bool) (m1 m2 : Mesh) (a : Attrs) (ed : List ℚ) (t : Full × List Binned.Col) (h : compute e auto m1 m2 a ed = .ok t) :
    t.1.args = a ∧ t.1.alpha = (e.painted m1 a.nmesh).alpha ∧ t.1.dataNorm = e.dataNorm m1 m2 t.1.alpha ∧ t.1.randomsNorm = e.randomsNorm m1 m2 t.1.alpha ∧
    t.1.shotnoise = e.shot m1 m2 t.1.alpha t.1.randomsNorm ∧ a.poles.Nodup ∧ ed ≠ [] ∧
    ((e.painted m1 a.nmesh).nan = false ∧ (e.painted m2 a.nmesh).nan = false ∧
      (auto = false → sameAlpha (e.painted m1 a.nmesh).alpha (e.painted m2 a.nmesh).alpha = true)) ∧
    t.1.entries = (if auto then copyMeta (e.painted m1 a.nmesh).entries ""
      else copyMeta (e.painted m1 a.nmesh).entries "first" ++ copyMeta (e.painted m2 a.nmesh).entries "second") ∧
    ∃ norm, Fkp.normFactor t.1.dataNorm t.1.randomsNorm = .ok norm ∧ (a.poles = [] ∨ (ed.map (· ^ 2)).Pairwise (· ≤ ·)) ∧
      ∃ r, Convpower.multipoles (e.conv ed m1 m2 a.nmesh (compensation m1) (compensation m2) norm) auto a.poles e.memory = .ok r ∧ t.2 = table r := by
  unfold compute at h
  dsimp only at h
  by_cases h1 : ¬ a.poles.Nodup ∨ ed = []
  · rw [if_pos h1] at h; cases h
  rw [if_neg h1] at h
  by_cases h0 : ((e.painted m1 a.nmesh).nan || (e.painted m2 a.nmesh).nan) = true
  · rw [if_pos h0] at h; cases h
  rw [if_neg h0] at h
  by_cases h2 : ¬ (auto || sameAlpha (e.painted m1 a.nmesh).alpha (e.painted m2 a.nmesh).alpha) = true
  · rw [if_pos h2] at h; cases h
  rw [if_neg h2] at h
  cases hn : Fkp.normFactor (e.dataNorm m1 m2 (e.painted m1 a.nmesh).alpha) (e.randomsNorm m1 m2 (e.painted m1 a.nmesh).alpha) with
  | error _ => rw [hn] at h; cases h
  | ok norm =>
    rw [hn] at h
    dsimp only at h
    by_cases h3 : a.poles ≠ [] ∧ ¬ (ed.map (· ^ 2)).Pairwise (· ≤ ·)
    · rw [if_pos h3] at h; cases h
    rw [if_neg h3] at h
    split at h
    · cases h
    · cases h
    · rename_i r hr
      cases h
      refine ⟨rfl, rfl, rfl, rfl, rfl, by tauto, by tauto, ⟨(by simpa using h0 : _ ∧ _).1, (by simpa using h0 : _ ∧ _).2, ?_⟩, rfl, norm, hn, by tauto, r, hr, rfl⟩
      intro ha
      simpa [ha] using h2

/-- C109: the box of a mesh after the run: unchanged in an autocorrelation or for boxes of equal size; otherwise along each axis the longer of the two
sides with the center of this side (that of the first source for equal sides), for both meshes. -/
theorem boxes (e : Env n K) (h : Heap) (g : Args) (h' : Heap) (o : Obj) (hk : new e h g = (h', .ok o)) (i j : Nat) (m1 m2 : Mesh)
    (h1 : h[i]? = some m1) (h2 : h[j]? = some m2) (hf : g.first = .mesh i) (hs : g.second = some (.mesh j) ∨ (g.second = none ∧ j = i)) :
    ∃ m1' m2', h'[i]? = some m1' ∧ h'[j]? = some m2' ∧ o.attrs.args.boxSize = m1'.boxSize ∧ o.attrs.args.boxCenter = m1'.boxCenter ∧
      (m1.boxSize = m2.boxSize → m1'.boxSize = m1.boxSize ∧ m1'.boxCenter = m1.boxCenter ∧ m2'.boxSize = m2.boxSize ∧ m2'.boxCenter = m2.boxCenter) ∧
      (m1.boxSize ≠ m2.boxSize → m2'.boxSize = m1'.boxSize ∧ m2'.boxCenter = m1'.boxCenter ∧
        ∀ (x : Nat) (s1 c1 s2 c2 : ℚ), m1.boxSize[x]? = some s1 → m1.boxCenter[x]? = some c1 → m2.boxSize[x]? = some s2 → m2.boxCenter[x]? = some c2 →
          (s2 ≤ s1 → m1'.boxSize[x]? = some s1 ∧ m1'.boxCenter[x]? = some c1) ∧ (s1 < s2 → m1'.boxSize[x]? = some s2 ∧ m1'.boxCenter[x]? = some c2)) := by
  rcases new_cases e h g with ⟨h2', x, he, hp⟩ | ⟨ha, hb, r1, r2, n1, n2, hc, hcs, hp, hm1, hm2, hv, hco, hd, he⟩
  · rw [he] at hk; cases hk
  obtain ⟨a1, a2, a3⟩ := cast_prefix _ _ _ _ _ hc
  obtain ⟨b1, b2, b3⟩ := second_prefix _ _ _ _ a1 _ _ hcs
  have e1 : r1 = i := by
    rcases a3 with ⟨k, hk1, rfl, _⟩ | ⟨hk1, _⟩
    · rw [hf] at hk1; cases hk1; rfl
    · exact absurd hf (hk1 i)
  have e2 : r2 = j := by
    rcases hs with hs | ⟨hs, hji⟩
    · rcases b3 with ⟨hk1, _⟩ | ⟨k, hk1, rfl, _⟩ | ⟨hk1, _⟩
      · rw [hs] at hk1; cases hk1
      · rw [hs] at hk1; cases hk1; rfl
      · exact absurd hs (hk1 j)
    · rcases b3 with ⟨_, hk1, _⟩ | ⟨k, hk1, _⟩ | ⟨_, hk1, _⟩
      · rw [hk1, e1, hji]
      · rw [hs] at hk1; cases hk1
      · exact absurd hs hk1
  subst e1 e2
  have q1 : n1 = m1 := by have := hp r1 m1 h1; rw [hm1] at this; exact Option.some.inj this
  have q2 : n2 = m2 := by have := hp r2 m2 h2; rw [hm2] at this; exact Option.some.inj this
  subst q1 q2
  rw [he, build_eq e g hb r1 r2 n1 n2 hm1 hm2] at hk
  dsimp only at hk
  split at hk
  · cases hk
  rename_i bins hbins
  simp only [Prod.mk.injEq] at hk
  obtain ⟨hk1, hk2⟩ := hk
  have hargs : o.attrs.args = ⟨g.poles.list, g.dk, g.kmin, g.kmax, n1.nmesh, (if n1.boxSize = n2.boxSize then n1 else recenter (jointBox n1 n2) n1).boxSize, n1.boxPad,
      (if n1.boxSize = n2.boxSize then n1 else recenter (jointBox n1 n2) n1).boxCenter, n1.resampler, n1.interlaced⟩ := by
    obtain ⟨t, ht, rest⟩ := bind_ok hk2
    obtain ⟨p, hp', rest⟩ := bind_ok rest
    cases rest
    exact (compute_ok e _ _ _ _ _ _ ht).1
  subst hk1
  rw [clear_get, clear_get, if_pos (.inl rfl), if_pos (.inr rfl), join_get, join_get, hm1, hm2, hargs]
  by_cases hbx : n1.boxSize = n2.boxSize
  · rw [if_pos (.inl hbx), if_pos (.inl hbx), if_pos hbx]
    exact ⟨_, _, rfl, rfl, rfl, rfl, fun _ => ⟨rfl, rfl, rfl, rfl⟩, fun hne => absurd hbx hne⟩
  · rw [if_neg (by simp [hbx]), if_neg (by simp [hbx]), if_neg hbx]
    refine ⟨_, _, rfl, rfl, rfl, rfl, fun heq => absurd heq hbx, fun _ => ⟨rfl, rfl, ?_⟩⟩
    intro x s1 c1 s2 c2 z1 z2 z3 z4
    have hz : (List.zipWith (fun (p q : ℚ × ℚ) => Fkp.jointAxis p.1 p.2 q.1 q.2) (n1.boxSize.zip n1.boxCenter) (n2.boxSize.zip n2.boxCenter))[x]? =
        some (Fkp.jointAxis s1 c1 s2 c2) := by
      have y1 : (n1.boxSize.zip n1.boxCenter)[x]? = some (s1, c1) := List.getElem?_zip_eq_some.mpr ⟨z1, z2⟩
      have y2 : (n2.boxSize.zip n2.boxCenter)[x]? = some (s2, c2) := List.getElem?_zip_eq_some.mpr ⟨z3, z4⟩
      rw [List.getElem?_zipWith, y1, y2]
    simp only [clearMesh, recenter, jointBox, List.getElem?_map, hz, Option.map_some]
    refine ⟨fun hle => ?_, fun hlt => ?_⟩
    · simp [Fkp.jointAxis, not_lt.mpr hle]
    · simp [Fkp.jointAxis, hlt]

/-! ## The result -/

/-- The fields of a mesh with itself are the same. -/
def Consistent (e : Env n K) : Prop := ∀ ed m nm c norm, (e.conv ed m m nm c c norm).field2 = (e.conv ed m m nm c c norm).field1 ∧
  (e.conv ed m m nm c c norm).comp2 = (e.conv ed m m nm c c norm).comp1

/-- The tables have an entry for each bin. -/
def Sized (e : Env n K) : Prop := ∀ ed m1 m2 nm c1 c2 norm, (e.conv ed m1 m2 nm c1 c2 norm).projK.length = ed.length - 1 ∧
  (e.conv ed m1 m2 nm c1 c2 norm).projN.length = ed.length - 1 ∧ ∀ f, ((e.conv ed m1 m2 nm c1 c2 norm).projP f).length = ed.length - 1

theorem init_k (ed : List ℚ) (data : List Binned.Col) (cs : Option (List ℚ)) (a : Option Full) (hc : ∀ c, cs = some c → ed.length = c.length + 1) :
    Binned.init ["k"] [ed] [ed.length - 1] data ["modes"] (some [cs]) a =
      .ok ⟨["k"], [ed], [cs.getD (Binned.centers ed)], data, Binned.maskOf (ed.length - 1) data, a, ["modes"]⟩ := by
  unfold Binned.init
  have : (cs.getD (Binned.centers ed)).length = ed.length - 1 := by
    cases cs with
    | none => exact FftObj.centers_length ed
    | some c => have := hc c rfl; simp; omega
  simp [this]

theorem kBins_fit (e : Env n K) (m : Mesh) (a : Attrs) (ed : List ℚ) (cs : Option (List ℚ)) (h : kBins e m a = .ok (ed, cs)) :
    ∀ c, cs = some c → ed.length = c.length + 1 := by
  unfold kBins at h
  dsimp only at h
  split at h
  · rename_i b hb
    simp only [Except.ok.injEq] at h
    subst h
    exact FftObj.xBins_fit _ _ _ _ ed cs hb
  · cases h

/-- C109: the bins: of width `dk` from `kmin` up to `kmax` if `dk > 0`, with the defaults `dk = 2 pi / min L` and `kmax = pi min N / max L + dk / 2` of the box of
the particle mesh, which is the box the first mesh was made with. -/
theorem bins_spec (e : Env n K) (m : Mesh) (a : Attrs) (Lmin Lmax : ℚ) (Nmin Nmax : Nat) (h1 : Lmin ∈ m.pmBox) (h2 : Lmax ∈ m.pmBox)
    (h3 : ∀ L ∈ m.pmBox, Lmin ≤ L ∧ L ≤ Lmax) (h4 : Nmin ∈ m.nmesh) (h5 : Nmax ∈ m.nmesh) (h6 : ∀ k ∈ m.nmesh, Nmin ≤ k ∧ k ≤ Nmax) (dk kmax : ℚ)
    (hd : dk = a.dk.getD (2 * e.pi / Lmin)) (hpos : 0 < dk) (hk : kmax = a.kmax.getD (e.pi * Nmin / Lmax + dk / 2)) (hlt : a.kmin < kmax) :
    ∃ ed, kBins e m a = .ok (ed, none) ∧ ∃ N : Nat, ed.length = N + 1 ∧ a.kmin + N * dk < kmax ∧ kmax ≤ a.kmin + (N + 1) * dk ∧
      ∀ i, i ≤ N → ed[i]? = some (a.kmin + i * dk) := by
  have hdef := fun (ee : FftObj.Env) (dx : ℚ) => FftObj.defaults ee m.pmBox m.nmesh Lmin Lmax Nmin Nmax h1 h2 h3 h4 h5 h6 dx
  unfold kBins FftObj.xBins
  dsimp only
  rw [(hdef _ 0).1, ← hd, if_pos hpos, (hdef _ dk).2.1, ← hk]
  obtain ⟨N, a1, _, _, a4, a5, _, a7⟩ := FftObj.arange_spec a.kmin kmax dk hpos hlt
  exact ⟨_, rfl, N, a1, a4, a5, a7⟩

/-- C109: a `kmax` that is not above `kmin` leaves no edge, and this is a ValueError. -/
theorem no_bins (e : Env n K) (auto : Bool) (m1 m2 : Mesh) (a : Attrs) (kmax dk : ℚ) (hd : a.dk = some dk) (hpos : 0 < dk) (hk : a.kmax = some kmax)
    (hle : kmax ≤ a.kmin) : kBins e m1 a = .ok ([], none) ∧ compute e auto m1 m2 a [] = .error .valueError := by
  constructor
  · unfold kBins FftObj.xBins
    simp only [hd, hk, Option.getD_some, hpos, if_true]
    have : FftObj.arange a.kmin kmax dk = [] := by
      have h := (FftObj.arange_length a.kmin kmax dk hpos 0).not.mpr (by simpa using hle)
      exact List.length_eq_zero_iff.mp (by omega)
    rw [this]
  · simp [compute]

theorem toMesh_src (c : Cat) (nm : Option (FftObj.Dim Nat)) (m : Mesh) (h : toMesh c nm = .ok m) : m.source = c.id ∧ m.nbar = c.nbar := by
  unfold toMesh at h
  split at h
  · cases h
  split at h
  · cases h
  · cases hb : c.bbox with
    | error _ => simp [hb, Except.bind] at h
    | ok b => simp only [hb, Except.bind, Except.ok.injEq] at h; subst h; exact ⟨rfl, rfl⟩

/-- C109: the whole result. With `m1` and `m2` the meshes as the run leaves them (with the joint box, without actions): the attributes hold the arguments and
the box, `alpha`, the norms and the shot noise of these meshes; the edges are the bins of the first mesh; the table has the columns `k`, `modes`, and for each
multipole asked for, in ascending order, the real and imaginary part of the average over the bins of `norm A_0(F1) conj(A_ell(F2))`, where the fields are
compensated by the window of the mesh that they are painted with. -/
theorem result_spec (e : Env n K) (hcons : Consistent e) (h : Heap) (g : Args) (h' : Heap) (o : Obj) (hk : new e h g = (h', .ok o)) :
    ∃ (r1 r2 : Nat) (m1 m2 : Mesh) (norm : ℚ) (ed : List ℚ) (cs : Option (List ℚ)), h'[r1]? = some m1 ∧ h'[r2]? = some m2 ∧ (∀ i, g.first = .mesh i → r1 = i) ∧
      (∀ i, g.second = some (.mesh i) → r2 = i) ∧ (g.second = none → r2 = r1) ∧ (g.first ≠ .other) ∧
      (∀ c, g.first = .catalog c → m1.source = c.id ∧ m1.nbar = c.nbar) ∧ (∀ c, g.second = some (.catalog c) → r2 ≠ r1 ∧ m2.source = c.id ∧ m2.nbar = c.nbar) ∧
      g.deprecated = false ∧ m2.source = m1.source ∧ m2.selection = m1.selection ∧ m2.compWeight = m1.compWeight ∧ m2.nbar = m1.nbar ∧ m2.comm = m1.comm ∧
      o.attrs.args = ⟨g.poles.list, g.dk, g.kmin, g.kmax, m1.nmesh, m1.boxSize, m1.boxPad, m1.boxCenter, m1.resampler, m1.interlaced⟩ ∧
      o.attrs.alpha = (e.painted m1 m1.nmesh).alpha ∧ o.attrs.dataNorm = e.dataNorm m1 m2 o.attrs.alpha ∧
      o.attrs.randomsNorm = e.randomsNorm m1 m2 o.attrs.alpha ∧ o.attrs.shotnoise = e.shot m1 m2 o.attrs.alpha o.attrs.randomsNorm ∧
      ((e.painted m1 m1.nmesh).nan = false ∧ (e.painted m2 m1.nmesh).nan = false ∧ (r1 ≠ r2 → sameAlpha o.attrs.alpha (e.painted m2 m1.nmesh).alpha = true)) ∧ g.poles.list.Nodup ∧ g.poles.list ≠ [] ∧
      o.attrs.entries = (if r1 = r2 then copyMeta (e.painted m1 m1.nmesh).entries ""
        else copyMeta (e.painted m1 m1.nmesh).entries "first" ++ copyMeta (e.painted m2 m1.nmesh).entries "second") ∧
      Fkp.normFactor o.attrs.dataNorm o.attrs.randomsNorm = .ok norm ∧ kBins e m1 o.attrs.args = .ok (ed, cs) ∧ o.edges = some ed ∧ ed ≠ [] ∧
      (∀ c, cs = some c → ed.length = c.length + 1) ∧
      o.poles = ⟨["k"], [ed], [cs.getD (Binned.centers ed)], o.poles.data, Binned.maskOf (ed.length - 1) o.poles.data, some o.attrs, ["modes"]⟩ ∧
      (let c := e.conv ed m1 m2 m1.nmesh (compensation m1) (compensation m2) norm
       o.poles.data = [⟨"k", false, c.projK.map FftObj.val⟩] ++ (g.poles.list.insertionSort (· ≤ ·)).flatMap (fun l =>
          let v := c.projP fun i => c.norm * Convpower.A0 c c.field1 c.comp1 i * c.conj (Convpower.A c c.field2 l i)
          [⟨"power_" ++ toString l ++ ".real", false, v.map fun x => FftObj.val x.1⟩, ⟨"power_" ++ toString l ++ ".imag", false, v.map fun x => FftObj.val x.2⟩])
          ++ [⟨"modes", true, c.projN.map FftObj.val⟩]) := by
  rcases new_cases e h g with ⟨h2', x, he, hp⟩ | ⟨ha, hb, r1, r2, n1, n2, hc, hcs, hp, hm1, hm2, hv, hco, hd, he⟩
  · rw [he] at hk; cases hk
  obtain ⟨a1, a2, a3⟩ := cast_prefix _ _ _ _ _ hc
  obtain ⟨b1, b2, b3⟩ := second_prefix _ _ _ _ a1 _ _ hcs
  rw [he, build_eq e g hb r1 r2 n1 n2 hm1 hm2] at hk
  dsimp only at hk
  split at hk
  · cases hk
  rename_i bins hbins
  simp only [Prod.mk.injEq] at hk
  obtain ⟨hk1, hk2⟩ := hk
  obtain ⟨t, ht, rest⟩ := bind_ok hk2
  obtain ⟨p, hp', rest⟩ := bind_ok rest
  cases rest
  obtain ⟨c1, c2, c3, c4, c5, c6, c7, c8, c8', norm, c9, c10, r, c11, c12⟩ := compute_ok e _ _ _ _ _ _ ht
  obtain ⟨ed, cs⟩ := bins
  have hfit := kBins_fit e n1 _ ed cs hbins
  rw [init_k ed t.2 cs (some t.1) hfit] at hp'
  cases hp'
  obtain ⟨v1, v2, v3, v4⟩ := (valid_iff n1 n2).mp hv
  generalize hf : (fun m => if n1.boxSize = n2.boxSize then m else recenter (jointBox n1 n2) m) = f
  have hf1 : (if n1.boxSize = n2.boxSize then n1 else recenter (jointBox n1 n2) n1) = f n1 := by rw [← hf]
  have hf2 : (if n1.boxSize = n2.boxSize then n2 else recenter (jointBox n1 n2) n2) = f n2 := by rw [← hf]
  have hsame : ∀ m, SameBut m (f m) ∧ (f m).actions = m.actions := by
    intro m; rw [← hf]; dsimp only; split <;> exact ⟨rfl, rfl⟩
  have hget : ∀ i m, hb[i]? = some m → (i = r1 ∨ i = r2) → h'[i]? = some (clearMesh (f m)) := by
    intro i m hm hi
    rw [← hk1, clear_get, if_pos hi, join_get, hm]
    by_cases hbx : n1.boxSize = n2.boxSize
    · rw [if_pos (.inl hbx), ← hf]; simp [hbx]
    · rw [if_neg (by rintro (q | q); exact hbx q; rcases hi with rfl | rfl; exact q.1 rfl; exact q.2 rfl), ← hf]; simp [hbx]
  simp only [hf1, hf2] at ht c1 c2 c3 c4 c5 c8 c8' c11 hbins
  have k1 : (clearMesh (f n1)).nmesh = n1.nmesh := by have := (hsame n1).1; unfold SameBut at this; rw [this]; rfl
  have fld : ∀ m, (clearMesh (f m)).source = m.source ∧ (clearMesh (f m)).nbar = m.nbar ∧ (clearMesh (f m)).selection = m.selection ∧
      (clearMesh (f m)).compWeight = m.compWeight ∧ (clearMesh (f m)).comm = m.comm ∧ (clearMesh (f m)).nmesh = m.nmesh ∧ (clearMesh (f m)).pmBox = m.pmBox ∧
      (clearMesh (f m)).boxPad = m.boxPad ∧ (clearMesh (f m)).resampler = m.resampler ∧ (clearMesh (f m)).interlaced = m.interlaced := by
    intro m; rw [← hf]; dsimp only; split <;> exact ⟨rfl, rfl, rfl, rfl, rfl, rfl, rfl, rfl, rfl, rfl⟩
  obtain ⟨f1, f2, f3, f4, f5, f6, f7, f8, f9, f10⟩ := fld n1
  obtain ⟨g1, g2, g3, g4, g5, g6, g7, g8, g9, g10⟩ := fld n2
  have hrr : r1 = r2 → n2 = n1 := by rintro rfl; rw [hm1] at hm2; exact (Option.some.inj hm2).symm
  have hne : g.poles.list ≠ [] := by
    intro h0
    rw [h0, Convpower.no_poles] at c11
    cases c11
  refine ⟨r1, r2, clearMesh (f n1), clearMesh (f n2), norm, ed, cs, hget r1 n1 hm1 (.inl rfl), hget r2 n2 hm2 (.inr rfl), ?_, ?_, ?_, ?_, ?_, ?_, hd,
    by rw [g1, f1, v1], by rw [g3, f3, v2], by rw [g4, f4, v3], by rw [g2, f2, v4], by rw [g5, f5, hco], ?_, ?_, c3, c4, c5, ?_, c6, hne, ?_, c9, ?_, rfl, c7, hfit, rfl, ?_⟩
  · intro i hi
    rcases a3 with ⟨j, hj, rfl, _⟩ | ⟨hj, _⟩
    · rw [hi] at hj; cases hj; rfl
    · exact absurd hi (hj i)
  · intro i hi
    rcases b3 with ⟨hj, _⟩ | ⟨j, hj, rfl, _⟩ | ⟨hj, _⟩
    · rw [hi] at hj; cases hj
    · rw [hi] at hj; cases hj; rfl
    · exact absurd hi (hj i)
  · intro hn
    rcases b3 with ⟨_, hj, _⟩ | ⟨j, hj, _⟩ | ⟨_, hj, _⟩
    · exact hj
    · rw [hn] at hj; cases hj
    · exact absurd hn hj
  · intro ho; rw [ho] at hc; cases hc
  · intro c hcat
    rw [f1, f2]
    have hh := hc
    rw [hcat] at hh
    simp only [castMesh] at hh
    cases htm : toMesh c g.nmesh with
    | error _ => simp [htm, Except.bind] at hh
    | ok m =>
      simp only [htm, Except.bind] at hh
      split at hh
      · cases hh
      simp only [Except.ok.injEq, Prod.mk.injEq] at hh
      obtain ⟨rfl, rfl⟩ := hh
      have := b2 _ m List.getElem?_concat_length
      rw [hm1] at this
      cases this
      exact toMesh_src c _ _ htm
  · intro c hcat
    have hh := hcs
    rw [hcat] at hh
    simp only [castSecond, castMesh] at hh
    cases htm : toMesh c g.nmesh with
    | error _ => simp [htm, Except.bind] at hh
    | ok m =>
      simp only [htm, Except.bind] at hh
      split at hh
      · cases hh
      simp only [Except.ok.injEq, Prod.mk.injEq] at hh
      obtain ⟨rfl, rfl⟩ := hh
      rw [List.getElem?_concat_length] at hm2
      cases hm2
      rw [g1, g2]
      exact ⟨by omega, toMesh_src c _ _ htm⟩
  · rw [c1, f6, f8, f9, f10]; rfl
  · rw [c2, f6]
  · rw [f6]
    refine ⟨c8.1, c8.2.1, ?_⟩
    intro hne'
    rw [c2]
    exact c8.2.2 (by simpa using hne')
  · rw [c8', f6]; simp
  · rw [c1]
    have : kBins e (clearMesh (f n1)) ⟨g.poles.list, g.dk, g.kmin, g.kmax, n1.nmesh, (f n1).boxSize, n1.boxPad, (f n1).boxCenter, n1.resampler, n1.interlaced⟩ =
        kBins e n1 ⟨g.poles.list, g.dk, g.kmin, g.kmax, n1.nmesh, (f n1).boxSize, n1.boxPad, (f n1).boxCenter, n1.resampler, n1.interlaced⟩ := by
      unfold kBins; rw [f6, f7]
    rw [this]; exact hbins
  · dsimp only
    rw [c12]
    rw [Convpower.multipoles_eq _ _ _ _ ?_ c6 hne] at c11
    · cases c11
      simp only [table, Option.getD_some, List.flatMap_map, FftObj.statCols, f6]
    · intro hau
      have hr : r1 = r2 := by simpa using hau
      rw [hrr hr]
      exact hcons _ _ _ _ _

end NBK.ConvObj
