import Verif.Binned.RebinLemmas

/-!
# What `reindex` returns
-/
set_option linter.unusedSimpArgs false
namespace NBK.Binned
variable {A : Type}

/-- The values `l` of the `f` old bins that make up the new bin `js` along axis `i`. -/
def IsOld (shape : List Nat) (i f : Nat) (a : List Val) (js : List Nat) (l : List Val) : Prop :=
  l.length = f ∧ ∀ t < f, Valid shape (js.set i (js.getD i 0 * f + t)) ∧ l[t]? = a[flat shape (js.set i (js.getD i 0 * f + t))]?

/-- Arguments with which `reindex` along axis `i` groups `f` of the `n` bins. -/
structure ReindexArgs (oldNumpy : Bool) (b : BS A) (dim : String) (spacing : ℚ) (weights : Weights) (force : Bool) (sum : List String)
    (i n f : Nat) : Prop where
  dim : b.dims[i]? = some dim
  bins : b.shape[i]? = some n
  two : 2 ≤ f
  le : f ≤ n
  factor : ∀ c0 c1 cs, b.coords[i]? = some (c0 :: c1 :: cs) → roundEven (spacing / (c1 - c0)) = f
  close : force = false → n % f = 0 ∧ ∀ c0 c1 cs, b.coords[i]? = some (c0 :: c1 :: cs) → allclose ((c1 - c0) * f) spacing = true
  pos : ∀ d ∈ b.shape, 0 < d
  weights : ∃ w, getWeights b weights = .ok w ∧ (∀ p, w = some p → p.2.length = b.shape.prod ∧ (n % f ≠ 0 → oldNumpy = true) ∧
    ∀ c ∈ b.data, c.name ∉ sum → ¬ (p.1 = true ∧ c.int = true))

/-- The new value in a bin with old values `l` and old weights `w`. -/
def newVal (sum : List String) (name : String) (k1 k2 : Nat) (l : List Val) (w : Option (List Val)) : Val :=
  if name ∈ sum then (fun v => nansum [v])^[k1] (nansum (l.map ((fun v => nansum [v])^[k2])))
  else match w with
  | none => nanmean l
  | some w => (fun v => wu v (npsum w))^[k1]
      ((nansum ((List.range l.length).map fun t => ((fun v => wu v (w.getD t .nan))^[k2] (l.getD t .nan)).mul (w.getD t .nan))).div (npsum w))

theorem getD_map_range (f t : Nat) (g : Nat → Val) (ht : t < f) : ((List.range f).map g).getD t .nan = g t := by
  rw [List.getD_eq_getElem _ _ (by simpa using ht)]; simp

/-- A re-binned variable. -/
theorem rebinCol_ok (sum : List String) (s1 s2 : List Nat) (n m f : Nat) (h1 : ∀ d ∈ s1, 0 < d) (h2 : ∀ d ∈ s2, 0 < d) (hm : 0 < m) (hn : m * f ≤ n)
    (w : Option (Bool × List Val)) (hw : ∀ p, w = some p → p.2.length = (s1 ++ n :: s2).prod) (c : Col)
    (hc : c.vals.length = (s1 ++ n :: s2).prod) (hint : c.name ∉ sum → ∀ p, w = some p → ¬ (p.1 = true ∧ c.int = true)) :
    ∃ vals : List Val, rebinCol sum (s1 ++ (m * f) :: s2) (s1 ++ m :: s2)
        (w.map fun p => (p.1, takeAxis .nan (s1 ++ n :: s2) s1.length (List.range (m * f)) p.2))
        { c with vals := takeAxis .nan (s1 ++ n :: s2) s1.length (List.range (m * f)) c.vals } = .ok { c with vals := vals.map (store c.int) } ∧
      vals.length = (s1 ++ m :: s2).prod ∧
      ∀ js, Valid (s1 ++ m :: s2) js → ∃ (l : List Val) (ws : Option (List Val)), IsOld (s1 ++ n :: s2) s1.length f c.vals js l ∧
        (w = none → ws = none) ∧ (∀ p, w = some p → ∃ wl, ws = some wl ∧ IsOld (s1 ++ n :: s2) s1.length f p.2 js wl) ∧
        vals[flat (s1 ++ m :: s2) js]? = some (newVal sum c.name s1.length s2.length l ws) := by
  obtain ⟨cut, hcut⟩ : ∃ cut : List Val → List Val, cut = fun a => takeAxis .nan (s1 ++ n :: s2) s1.length (List.range (m * f)) a := ⟨_, rfl⟩
  have hcl : ∀ a, (cut a).length = (s1 ++ (m * f) :: s2).prod := by
    intro a
    rw [hcut]
    dsimp only
    rw [takeAxis_length _ _ _ (by simp), List.set_append_right _ _ le_rfl]; simp
  -- old values of a new bin
  have hold : ∀ a : List Val, a.length = (s1 ++ n :: s2).prod → ∀ j1 j j2, j1.length = s1.length → Valid (s1 ++ m :: s2) (j1 ++ j :: j2) →
      IsOld (s1 ++ n :: s2) s1.length f a (j1 ++ j :: j2)
        ((List.range f).map fun t => (cut a).getD (flat (s1 ++ (m * f) :: s2) (j1 ++ (j * f + t) :: j2)) .nan) := by
    intro a ha j1 j j2 hj hv
    refine ⟨by simp, fun t ht => ?_⟩
    have ej : (j1 ++ j :: j2).getD s1.length 0 = j := by rw [← hj]; simp [List.getD_eq_getElem?_getD]
    have es : ∀ x, (j1 ++ j :: j2).set s1.length x = j1 ++ x :: j2 := by
      intro x; rw [List.set_append_right _ _ (by omega), hj]; simp
    obtain ⟨g1, g2⟩ := cut_get Val.nan s1 s2 n (m * f) a ha hn j1 (j * f + t) j2 hj (valid_block s1 s2 j1 j2 m f j t hj hv ht)
    rw [ej, es]
    refine ⟨g2, ?_⟩
    have hlt := flat_lt _ _ g2
    rw [← ha] at hlt
    rw [List.getElem?_map, List.getElem?_range ht, Option.map_some]
    have : (cut a)[flat (s1 ++ (m * f) :: s2) (j1 ++ (j * f + t) :: j2)]? = a[flat (s1 ++ n :: s2) (j1 ++ (j * f + t) :: j2)]? := by rw [hcut]; exact g1
    rw [List.getD_eq_getElem?_getD, this, List.getElem?_eq_getElem hlt]; rfl
  have hjs : ∀ js, Valid (s1 ++ m :: s2) js → ∃ j1 j j2, js = j1 ++ j :: j2 ∧ j1.length = s1.length := by
    intro js hv
    have hl : s1.length < js.length := by have := hv.1; simp at this; omega
    exact ⟨_, _, _, split_at js s1.length hl, by simp; omega⟩
  have cuteq : ∀ a, takeAxis .nan (s1 ++ n :: s2) s1.length (List.range (m * f)) a = cut a := by intro a; rw [hcut]
  simp only [cuteq]
  unfold rebinCol
  by_cases hs : c.name ∈ sum
  · -- summed
    obtain ⟨out, o1, o2, o3⟩ := bin_none nansum s1 s2 m f h1 h2 hm (cut c.vals) (hcl _)
    refine ⟨out, ?_, o2, ?_⟩
    · simp only [hs, decide_true, Bool.or_true, if_true, o1]
      rfl
    · intro js hv
      obtain ⟨j1, j, j2, rfl, hj⟩ := hjs js hv
      obtain ⟨ws, hws1, hws2⟩ : ∃ ws : Option (List Val), (w = none → ws = none) ∧
          (∀ p, w = some p → ∃ wl, ws = some wl ∧ IsOld (s1 ++ n :: s2) s1.length f p.2 (j1 ++ j :: j2) wl) := by
        cases w with
        | none => exact ⟨none, fun _ => rfl, nofun⟩
        | some p =>
          obtain ⟨wl, hp⟩ : ∃ wl, IsOld (s1 ++ n :: s2) s1.length f p.2 (j1 ++ j :: j2) wl := ⟨_, hold _ (hw _ rfl) j1 j j2 hj hv⟩
          exact ⟨some wl, nofun, fun q hq => ⟨_, rfl, Option.some.inj hq ▸ hp⟩⟩
      refine ⟨_, ws, hold _ hc j1 j j2 hj hv, hws1, hws2, ?_⟩
      rw [o3 j1 j j2 hj hv]; unfold newVal; rw [if_pos hs]
      simp only [List.map_map]
      rfl
  · cases w with
    | none =>
      obtain ⟨out, o1, o2, o3⟩ := bin_none nanmean s1 s2 m f h1 h2 hm (cut c.vals) (hcl _)
      refine ⟨out, ?_, o2, ?_⟩
      · simp only [hs, decide_false, Option.map_none, Option.isSome_none, Bool.or_false, Bool.false_eq_true, if_false, o1]
        rfl
      · intro js hv
        obtain ⟨j1, j, j2, rfl, hj⟩ := hjs js hv
        refine ⟨_, none, hold _ hc j1 j j2 hj hv, fun _ => rfl, nofun, ?_⟩
        rw [o3 j1 j j2 hj hv]; unfold newVal; rw [if_neg hs]
        simp only
        rw [← mean_passes s1.length s2.length (List.map (fun t => (cut c.vals).getD (flat (s1 ++ m * f :: s2) (j1 ++ (j * f + t) :: j2)) Val.nan)
          (List.range f)), List.map_map]
        rfl
    | some p =>
      obtain ⟨wi, wv⟩ := p
      obtain ⟨out, o1, o2, o3⟩ := bin_some s1 s2 m f h1 h2 hm (cut c.vals) (cut wv) (hcl _) (hcl _)
      refine ⟨out, ?_, o2, ?_⟩
      · have hi : (wi && c.int) = false := by
          have := hint hs _ rfl
          cases wi <;> cases hci : c.int <;> simp_all
        simp only [hs, decide_false, Option.map_some, Option.isSome_some, Bool.true_or, if_true, Bool.false_eq_true, if_false, hi, o1]
        rfl
      · intro js hv
        obtain ⟨j1, j, j2, rfl, hj⟩ := hjs js hv
        have hwl := hold _ (hw _ rfl) j1 j j2 hj hv
        refine ⟨_, some (List.map (fun t => (cut wv).getD (flat (s1 ++ m * f :: s2) (j1 ++ (j * f + t) :: j2)) Val.nan) (List.range f)),
          hold _ hc j1 j j2 hj hv, nofun, fun q hq => ⟨_, rfl, ?_⟩, ?_⟩
        · have e := Option.some.inj hq
          have e2 : q.2 = wv := by rw [← e]
          rw [e2]
          exact hwl
        · obtain ⟨W, hW, hout⟩ := o3 j1 j j2 hj hv
          rw [hout]; unfold newVal; rw [if_neg hs, hW]
          simp only [List.length_map, List.length_range]
          congr 4
          apply List.map_congr_left
          intro t ht
          rw [getD_map_range f t _ (by simpa using ht), getD_map_range f t _ (by simpa using ht)]

end NBK.Binned
