import Verif.Binned.IndexLemmas
import Mathlib.Logic.Function.Iterate
import Mathlib.Data.List.Induction
import Mathlib.Tactic.FieldSimp

/-!
# Lemmas about `bin_ndarray`, one axis re-binned
-/
set_option linter.unusedSimpArgs false
namespace NBK.Binned

/-- The shape `d0, 1, d1, 1, ...`. -/
def inter (s : List Nat) : List Nat := s.flatMap fun d => [d, 1]

theorem inter_prod (s : List Nat) : (inter s).prod = s.prod := by
  induction s with
  | nil => rfl
  | cons d s ih => simp only [inter, List.flatMap_cons, List.prod_append, List.prod_cons, List.prod_nil] at *; simp [ih]

theorem inter_append (s t : List Nat) : inter (s ++ t) = inter s ++ inter t := by simp [inter]

theorem drop_mid (P T : List Nat) (x : Nat) : (P ++ x :: T).drop (P.length + 1) = T := by
  induction P with
  | nil => rfl
  | cons p P ih => simpa using ih

/-- A reduction depends on the shape only through the sizes before and after the axis. -/
theorem reduceAxis_congr (op : List Val → Val) (P P' T : List Nat) (f : Nat) (a : List Val) (h : P.prod = P'.prod) :
    reduceAxis op (P ++ f :: T) P.length a = reduceAxis op (P' ++ f :: T) P'.length a := by
  unfold reduceAxis
  dsimp only
  have t1 : ∀ P : List Nat, (P ++ f :: T).take P.length = P := by simp
  have t2 : ∀ P : List Nat, (P ++ f :: T).getD P.length 1 = f := by intro P; simp [List.getD_eq_getElem?_getD]
  have t3 : ∀ P : List Nat, (P ++ f :: T).drop (P.length + 1) = T := by intro P; simp [List.drop_append]
  rw [t1, t1, t2, t2, t3, t3, h]

theorem reduceAxis_length (op : List Val → Val) (P T : List Nat) (f : Nat) (a : List Val) :
    (reduceAxis op (P ++ f :: T) P.length a).length = (P ++ T).prod := by
  unfold reduceAxis
  dsimp only
  rw [drop_mid]
  simp

/-- A reduction over an axis of length one. -/
theorem reduceAxis_one (op : List Val → Val) (P T : List Nat) (a : List Val) (ha : a.length = (P ++ T).prod) :
    reduceAxis op (P ++ 1 :: T) P.length a = a.map fun v => op [v] := by
  apply List.ext_getElem
  · rw [reduceAxis_length, List.length_map, ha]
  · intro o h1 h2
    have ho : o < a.length := by simpa using h2
    have t1 : (P ++ 1 :: T).take P.length = P := by simp
    have t2 : (P ++ 1 :: T).getD P.length 1 = 1 := by simp [List.getD_eq_getElem?_getD]
    rw [← Option.some_inj, ← List.getElem?_eq_getElem h1, ← List.getElem?_eq_getElem h2]
    unfold reduceAxis
    dsimp only
    rw [t1, t2, drop_mid, List.getElem?_map, List.getElem?_map, List.getElem?_range (by rw [List.prod_append] at ha; omega), List.getElem?_eq_getElem ho]
    simp only [Option.map_some, List.range_one, List.map_cons, List.map_nil, Nat.mul_one, Nat.add_zero]
    rw [Nat.div_add_mod', List.getD_eq_getElem _ _ ho]

theorem npsum_one (v : Val) : npsum [v] = v := by
  cases v <;> simp [npsum, Val.add]

/-- `nansum` of a single value. -/
def nz (v : Val) : Val := if v = .nan then .fin 0 else v

theorem nansum_one (v : Val) : nansum [v] = nz v := by
  cases v <;> simp [nansum, nz, npsum, Val.add]

theorem nanmean_one (v : Val) : nanmean [v] = v := by
  cases v <;> simp [nanmean, nansum, npsum, Val.add, Val.div]
  have : decide ((1 : ℚ) < 0) = false := by decide
  rw [this]; simp

/-- What a pass over an axis of length one does with a weighted value. -/
def wu (x w : Val) : Val := (nz (x.mul w)).div w

theorem eraseIdx_mid (P T : List Nat) (x : Nat) : (P ++ x :: T).eraseIdx P.length = P ++ T := by
  rw [List.eraseIdx_append_of_length_le le_rfl]; simp

theorem binStep_one (op : List Val → Val) (P T : List Nat) (a : List Val) (ha : a.length = (P ++ T).prod) :
    binStep op (P ++ 1 :: T, a, none) T.length = (P ++ T, a.map fun v => op [v], none) := by
  have : (P ++ 1 :: T).length - (T.length + 1) = P.length := by simp
  simp only [binStep, this, eraseIdx_mid, reduceAxis_one op P T a ha]

theorem zipWith_length {α β γ : Type} (f : α → β → γ) (a : List α) (b : List β) (h : a.length = b.length) : (List.zipWith f a b).length = a.length := by
  simp [h]

theorem binStep_one_w (P T : List Nat) (a w : List Val) (ha : a.length = (P ++ T).prod) (hw : w.length = (P ++ T).prod) :
    binStep nansum (P ++ 1 :: T, a, some w) T.length = (P ++ T, List.zipWith wu a w, some w) := by
  have : (P ++ 1 :: T).length - (T.length + 1) = P.length := by simp
  simp only [binStep, this, eraseIdx_mid]
  have hl : (List.zipWith Val.mul a w).length = (P ++ T).prod := by rw [zipWith_length _ _ _ (by omega), ha]
  rw [reduceAxis_one nansum P T _ hl, reduceAxis_one npsum P T w hw]
  have e1 : (w.map fun v => npsum [v]) = w := by simp [npsum_one]
  rw [e1]
  refine congrArg (fun x => (P ++ T, x, some w)) ?_
  apply List.ext_getElem
  · simp
  · intro o h1 h2
    simp [nansum_one, wu]

/-- The passes over axes of length one. -/
theorem unit_steps (op : List Val → Val) (s : List Nat) : ∀ (P T : List Nat) (a : List Val), a.length = (P ++ s ++ T).prod →
    (List.range' T.length s.length).foldl (binStep op) (P ++ inter s ++ T, a, none) =
      (P ++ s ++ T, (List.map fun v => op [v])^[s.length] a, none) := by
  induction s using List.reverseRecOn with
  | nil => intro P T a _; simp [inter]
  | append_singleton s d ih =>
    intro P T a ha
    have e1 : P ++ inter (s ++ [d]) ++ T = (P ++ inter s ++ [d]) ++ 1 :: T := by simp [inter_append, inter]
    have e2 : (P ++ inter s ++ [d]) ++ T = P ++ inter s ++ (d :: T) := by simp
    have hp : a.length = ((P ++ inter s ++ [d]) ++ T).prod := by
      rw [ha]; simp [List.prod_append, inter_prod, Nat.mul_assoc]
    rw [List.length_append, List.length_singleton, List.range'_succ, List.foldl_cons, e1, binStep_one _ _ _ _ hp, e2]
    have := ih P (d :: T) (a.map fun v => op [v]) (by rw [List.length_map, ha]; simp)
    rw [List.length_cons] at this
    rw [this, Function.iterate_succ_apply]
    simp

theorem unit_steps_w (s : List Nat) : ∀ (P T : List Nat) (a w : List Val), a.length = (P ++ s ++ T).prod → w.length = (P ++ s ++ T).prod →
    (List.range' T.length s.length).foldl (binStep nansum) (P ++ inter s ++ T, a, some w) =
      (P ++ s ++ T, (fun x => List.zipWith wu x w)^[s.length] a, some w) := by
  induction s using List.reverseRecOn with
  | nil => intro P T a w _ _; simp [inter]
  | append_singleton s d ih =>
    intro P T a w ha hw
    have e1 : P ++ inter (s ++ [d]) ++ T = (P ++ inter s ++ [d]) ++ 1 :: T := by simp [inter_append, inter]
    have e2 : (P ++ inter s ++ [d]) ++ T = P ++ inter s ++ (d :: T) := by simp
    have hp : (P ++ (s ++ [d]) ++ T).prod = ((P ++ inter s ++ [d]) ++ T).prod := by
      simp [List.prod_append, inter_prod, Nat.mul_assoc]
    rw [List.length_append, List.length_singleton, List.range'_succ, List.foldl_cons, e1, binStep_one_w _ _ _ _ (by rw [ha, hp]) (by rw [hw, hp]), e2]
    have := ih P (d :: T) (List.zipWith wu a w) w (by rw [zipWith_length _ _ _ (by omega), ha]; simp) (by rw [hw]; simp)
    rw [List.length_cons] at this
    rw [this, Function.iterate_succ_apply]
    simp

theorem iter_map_get (g : Val → Val) (k : Nat) : ∀ (a : List Val) (o : Nat), ((List.map g)^[k] a)[o]? = (a[o]?).map (g^[k]) := by
  induction k with
  | zero => intro a o; simp
  | succ k ih =>
    intro a o
    rw [Function.iterate_succ_apply, ih, List.getElem?_map, Option.map_map]
    rfl

theorem iter_map_length (g : Val → Val) (k : Nat) (a : List Val) : ((List.map g)^[k] a).length = a.length := by
  induction k generalizing a with
  | zero => rfl
  | succ k ih => rw [Function.iterate_succ_apply, ih, List.length_map]

theorem iter_zip_get (w : List Val) (k : Nat) : ∀ (a : List Val), a.length = w.length → ∀ (o : Nat) (x q : Val), a[o]? = some x → w[o]? = some q →
    ((fun y => List.zipWith wu y w)^[k] a)[o]? = some ((fun y => wu y q)^[k] x) := by
  induction k with
  | zero => intro a _ o x q hx _; simpa using hx
  | succ k ih =>
    intro a hl o x q hx hq
    rw [Function.iterate_succ_apply, Function.iterate_succ_apply]
    exact ih _ (by rw [zipWith_length _ _ _ hl, hl]) o _ q (by rw [List.getElem?_zipWith, hx, hq]) hq

theorem iter_zip_length (w : List Val) (k : Nat) : ∀ (a : List Val), a.length = w.length → ((fun y => List.zipWith wu y w)^[k] a).length = w.length := by
  induction k with
  | zero => intro a h; exact h
  | succ k ih =>
    intro a h
    rw [Function.iterate_succ_apply]
    exact ih _ (by rw [zipWith_length _ _ _ h, h])

theorem range_split (a b : Nat) : List.range (a + 1 + b) = List.range' 0 b ++ (b :: List.range' (b + 1) a) := by
  rw [List.range_eq_range', show a + 1 + b = b + (a + 1) by omega, ← List.range'_append_1, Nat.zero_add, List.range'_succ]

theorem flattened_eq (s1 s2 : List Nat) (m f : Nat) (h1 : ∀ d ∈ s1, 0 < d) (h2 : ∀ d ∈ s2, 0 < d) (hm : 0 < m) :
    ((List.zip (s1 ++ m :: s2) (s1 ++ (m * f) :: s2)).flatMap fun p => [p.1, p.2 / p.1]) = inter s1 ++ m :: f :: inter s2 := by
  have key : ∀ s : List Nat, (∀ d ∈ s, 0 < d) → ((List.zip s s).flatMap fun p => [p.1, p.2 / p.1]) = inter s := by
    intro s hs
    induction s with
    | nil => rfl
    | cons d s ih =>
      rw [List.zip_cons_cons, List.flatMap_cons, ih fun x hx => hs x (by simp [hx])]
      simp [inter, Nat.div_self (hs d (by simp))]
  rw [List.zip_append rfl, List.zip_cons_cons, List.flatMap_append, List.flatMap_cons, key s1 h1, key s2 h2]
  simp [Nat.mul_div_cancel_left f hm]

theorem mod_check (s1 s2 : List Nat) (m f : Nat) :
    ((List.zip (s1 ++ (m * f) :: s2) (s1 ++ m :: s2)).any fun p => p.2 ≠ 0 && p.1 % p.2 ≠ 0) = false := by
  have key : ∀ s : List Nat, ((List.zip s s).any fun p => p.2 ≠ 0 && p.1 % p.2 ≠ 0) = false := by
    intro s
    induction s with
    | nil => rfl
    | cons d s ih => rw [List.zip_cons_cons, List.any_cons, ih]; simp
  rw [List.zip_append rfl, List.zip_cons_cons, List.any_append, List.any_cons, key s1, key s2]
  simp

theorem zero_check (s1 s2 : List Nat) (m : Nat) (h1 : ∀ d ∈ s1, 0 < d) (h2 : ∀ d ∈ s2, 0 < d) (hm : 0 < m) :
    ((s1 ++ m :: s2).any fun d => d = 0) = false := by
  rw [List.any_eq_false]
  intro x hx
  simp only [List.mem_append, List.mem_cons] at hx
  have : 0 < x := by
    rcases hx with h | rfl | h
    · exact h1 x h
    · exact hm
    · exact h2 x h
  simp; omega

theorem flat_block (s1 s2 j1 j2 : List Nat) (m f j t : Nat) (h : j1.length = s1.length) :
    flat ((s1 ++ [m]) ++ f :: s2) ((j1 ++ [j]) ++ t :: j2) = flat (s1 ++ (m * f) :: s2) (j1 ++ (j * f + t) :: j2) := by
  rw [flat_append _ _ _ _ (by simp [h]), flat_append _ _ _ _ h, flat_append _ _ _ _ h]
  simp only [flat, List.prod_cons, List.prod_nil]
  ring

theorem valid_block (s1 s2 j1 j2 : List Nat) (m f j t : Nat) (h : j1.length = s1.length) (hv : Valid (s1 ++ m :: s2) (j1 ++ j :: j2)) (ht : t < f) :
    Valid (s1 ++ (m * f) :: s2) (j1 ++ (j * f + t) :: j2) := by
  obtain ⟨v1, v2⟩ := (valid_append _ _ _ _ h).mp hv
  obtain ⟨v3, v4⟩ := (valid_cons _ _ _ _).mp v2
  refine (valid_append _ _ _ _ h).mpr ⟨v1, (valid_cons _ _ _ _).mpr ⟨?_, v4⟩⟩
  calc j * f + t < j * f + f := by omega
    _ = (j + 1) * f := by ring
    _ ≤ m * f := Nat.mul_le_mul_right _ v3

/-- `bin_ndarray` without weights, when one axis changes. -/
theorem bin_none (op : List Val → Val) (s1 s2 : List Nat) (m f : Nat) (h1 : ∀ d ∈ s1, 0 < d) (h2 : ∀ d ∈ s2, 0 < d) (hm : 0 < m)
    (a : List Val) (ha : a.length = (s1 ++ (m * f) :: s2).prod) :
    ∃ out, binNdarray op (s1 ++ (m * f) :: s2) (s1 ++ m :: s2) a none = .ok out ∧ out.length = (s1 ++ m :: s2).prod ∧
      ∀ j1 j j2, j1.length = s1.length → Valid (s1 ++ m :: s2) (j1 ++ j :: j2) → out[flat (s1 ++ m :: s2) (j1 ++ j :: j2)]? =
        some ((fun v => op [v])^[s1.length] (op ((List.range f).map fun t =>
          (fun v => op [v])^[s2.length] (a.getD (flat (s1 ++ (m * f) :: s2) (j1 ++ (j * f + t) :: j2)) .nan)))) := by
  obtain ⟨a1, ha1⟩ : ∃ a1, a1 = (List.map fun v => op [v])^[s2.length] a := ⟨_, rfl⟩
  obtain ⟨a2, ha2⟩ : ∃ a2, a2 = reduceAxis op ((s1 ++ [m]) ++ f :: s2) (s1 ++ [m]).length a1 := ⟨_, rfl⟩
  have ha1l : a1.length = a.length := by rw [ha1, iter_map_length]
  have hprod : (s1 ++ (m * f) :: s2).prod = ((inter s1 ++ [m, f]) ++ s2).prod := by
    simp only [List.prod_append, List.prod_cons, List.prod_nil, inter_prod]; ring
  have hfold : ((List.range (s1 ++ m :: s2).length).foldl (binStep op) (inter s1 ++ m :: f :: inter s2, a, none)) =
      (s1 ++ m :: s2, (List.map fun v => op [v])^[s1.length] a2, none) := by
    have hr : (s1 ++ m :: s2).length = s1.length + 1 + s2.length := by simp; omega
    rw [hr, range_split, List.foldl_append, List.foldl_cons]
    have u1 := unit_steps op s2 (inter s1 ++ [m, f]) [] a (by rw [ha, hprod]; simp)
    simp only [List.length_nil, List.append_nil] at u1
    have e1 : inter s1 ++ m :: f :: inter s2 = inter s1 ++ [m, f] ++ inter s2 := by simp
    rw [e1, u1, ← ha1]
    have e2 : inter s1 ++ [m, f] ++ s2 = (inter s1 ++ [m]) ++ f :: s2 := by simp
    have e3 : binStep op ((inter s1 ++ [m]) ++ f :: s2, a1, none) s2.length = ((inter s1 ++ [m]) ++ s2, a2, none) := by
      have : ((inter s1 ++ [m]) ++ f :: s2).length - (s2.length + 1) = (inter s1 ++ [m]).length := by simp; omega
      simp only [binStep, this, eraseIdx_mid]
      rw [ha2, reduceAxis_congr op (inter s1 ++ [m]) (s1 ++ [m]) s2 f a1 (by simp [List.prod_append, inter_prod])]
    rw [e2, e3]
    have u2 := unit_steps op s1 [] (m :: s2) a2 (by
      rw [ha2, reduceAxis_length]; simp)
    simp only [List.length_cons, List.nil_append] at u2
    have e4 : (inter s1 ++ [m]) ++ s2 = inter s1 ++ (m :: s2) := by simp
    rw [e4, u2]
  refine ⟨(List.map fun v => op [v])^[s1.length] a2, ?_, ?_, ?_⟩
  · unfold binNdarray
    rw [if_neg (by simp), if_neg (by rw [mod_check]; simp), if_neg (by rw [zero_check s1 s2 m h1 h2 hm]; simp)]
    simp only [Bool.false_eq_true, if_false]
    rw [flattened_eq s1 s2 m f h1 h2 hm, hfold]
  · rw [iter_map_length, ha2, reduceAxis_length]; simp
  · intro j1 j j2 hj hv
    rw [iter_map_get]
    obtain ⟨v1, v2⟩ := (valid_append _ _ _ _ hj).mp hv
    obtain ⟨v3, v4⟩ := (valid_cons _ _ _ _).mp v2
    have g := reduceAxis_get op (s1 ++ [m]) s2 f a1 (j1 ++ [j]) j2 ((valid_append _ _ _ _ hj).mpr ⟨v1, (valid_cons _ _ _ _).mpr ⟨v3, Valid.nil⟩⟩) v4
    have e5 : (s1 ++ [m]) ++ s2 = s1 ++ m :: s2 := by simp
    have e6 : (j1 ++ [j]) ++ j2 = j1 ++ j :: j2 := by simp
    rw [e5, e6, ← ha2] at g
    rw [g, Option.map_some]
    congr 3
    apply List.map_congr_left
    intro t ht
    rw [flat_block _ _ _ _ _ _ _ _ hj]
    have hlt := flat_lt _ _ (valid_block s1 s2 j1 j2 m f j t hj hv (by simpa using ht))
    rw [← ha] at hlt
    rw [List.getD_eq_getElem?_getD, ha1, iter_map_get, List.getElem?_eq_getElem hlt, List.getD_eq_getElem _ _ hlt]
    rfl

/-- `bin_ndarray` with weights, when one axis changes. -/
theorem bin_some (s1 s2 : List Nat) (m f : Nat) (h1 : ∀ d ∈ s1, 0 < d) (h2 : ∀ d ∈ s2, 0 < d) (hm : 0 < m)
    (a w : List Val) (ha : a.length = (s1 ++ (m * f) :: s2).prod) (hw : w.length = (s1 ++ (m * f) :: s2).prod) :
    ∃ out, binNdarray nansum (s1 ++ (m * f) :: s2) (s1 ++ m :: s2) a (some w) = .ok out ∧ out.length = (s1 ++ m :: s2).prod ∧
      ∀ j1 j j2, j1.length = s1.length → Valid (s1 ++ m :: s2) (j1 ++ j :: j2) →
        ∃ W : Val, W = npsum ((List.range f).map fun t => w.getD (flat (s1 ++ (m * f) :: s2) (j1 ++ (j * f + t) :: j2)) .nan) ∧
        out[flat (s1 ++ m :: s2) (j1 ++ j :: j2)]? =
        some ((fun v => wu v W)^[s1.length] ((nansum ((List.range f).map fun t =>
          ((fun v => wu v (w.getD (flat (s1 ++ (m * f) :: s2) (j1 ++ (j * f + t) :: j2)) .nan))^[s2.length]
            (a.getD (flat (s1 ++ (m * f) :: s2) (j1 ++ (j * f + t) :: j2)) .nan)).mul
            (w.getD (flat (s1 ++ (m * f) :: s2) (j1 ++ (j * f + t) :: j2)) .nan))).div W)) := by
  obtain ⟨a1, ha1⟩ : ∃ a1, a1 = (fun x => List.zipWith wu x w)^[s2.length] a := ⟨_, rfl⟩
  obtain ⟨a2, ha2⟩ : ∃ a2, a2 = reduceAxis nansum ((s1 ++ [m]) ++ f :: s2) (s1 ++ [m]).length (List.zipWith Val.mul a1 w) := ⟨_, rfl⟩
  obtain ⟨w2, hw2⟩ : ∃ w2, w2 = reduceAxis npsum ((s1 ++ [m]) ++ f :: s2) (s1 ++ [m]).length w := ⟨_, rfl⟩
  have ha1l : a1.length = w.length := by rw [ha1, iter_zip_length _ _ _ (by omega)]
  have ha2l : a2.length = (s1 ++ m :: s2).prod := by rw [ha2, reduceAxis_length]; simp
  have hw2l : w2.length = (s1 ++ m :: s2).prod := by rw [hw2, reduceAxis_length]; simp
  have hzl : (List.zipWith Val.div a2 w2).length = w2.length := by rw [zipWith_length _ _ _ (by omega)]; omega
  have hprod : (s1 ++ (m * f) :: s2).prod = ((inter s1 ++ [m, f]) ++ s2).prod := by
    simp only [List.prod_append, List.prod_cons, List.prod_nil, inter_prod]; ring
  have hfold : ((List.range (s1 ++ m :: s2).length).foldl (binStep nansum) (inter s1 ++ m :: f :: inter s2, a, some w)) =
      (s1 ++ m :: s2, (fun x => List.zipWith wu x w2)^[s1.length] (List.zipWith Val.div a2 w2), some w2) := by
    have hr : (s1 ++ m :: s2).length = s1.length + 1 + s2.length := by simp; omega
    rw [hr, range_split, List.foldl_append, List.foldl_cons]
    have u1 := unit_steps_w s2 (inter s1 ++ [m, f]) [] a w (by rw [ha, hprod]; simp) (by rw [hw, hprod]; simp)
    simp only [List.length_nil, List.append_nil] at u1
    have e1 : inter s1 ++ m :: f :: inter s2 = inter s1 ++ [m, f] ++ inter s2 := by simp
    rw [e1, u1, ← ha1]
    have e2 : inter s1 ++ [m, f] ++ s2 = (inter s1 ++ [m]) ++ f :: s2 := by simp
    have e3 : binStep nansum ((inter s1 ++ [m]) ++ f :: s2, a1, some w) s2.length = ((inter s1 ++ [m]) ++ s2, List.zipWith Val.div a2 w2, some w2) := by
      have : ((inter s1 ++ [m]) ++ f :: s2).length - (s2.length + 1) = (inter s1 ++ [m]).length := by simp; omega
      simp only [binStep, this, eraseIdx_mid]
      rw [ha2, hw2, reduceAxis_congr nansum (inter s1 ++ [m]) (s1 ++ [m]) s2 f _ (by simp [List.prod_append, inter_prod]),
        reduceAxis_congr npsum (inter s1 ++ [m]) (s1 ++ [m]) s2 f _ (by simp [List.prod_append, inter_prod])]
    rw [e2, e3]
    have u2 := unit_steps_w s1 [] (m :: s2) (List.zipWith Val.div a2 w2) w2 (by rw [hzl, hw2l]; simp) (by rw [hw2l]; simp)
    simp only [List.length_cons, List.nil_append] at u2
    have e4 : (inter s1 ++ [m]) ++ s2 = inter s1 ++ (m :: s2) := by simp
    rw [e4, u2]
  refine ⟨(fun x => List.zipWith wu x w2)^[s1.length] (List.zipWith Val.div a2 w2), ?_, ?_, ?_⟩
  · unfold binNdarray
    rw [if_neg (by simp), if_neg (by rw [mod_check]; simp), if_neg (by rw [zero_check s1 s2 m h1 h2 hm]; simp)]
    rw [if_neg (by simp; omega)]
    dsimp only
    rw [flattened_eq s1 s2 m f h1 h2 hm, hfold]
  · rw [iter_zip_length _ _ _ hzl, hw2l]
  · intro j1 j j2 hj hv
    obtain ⟨v1, v2⟩ := (valid_append _ _ _ _ hj).mp hv
    obtain ⟨v3, v4⟩ := (valid_cons _ _ _ _).mp v2
    have vm := (valid_append s1 [m] j1 [j] hj).mpr ⟨v1, (valid_cons _ _ _ _).mpr ⟨v3, Valid.nil⟩⟩
    have g := reduceAxis_get nansum (s1 ++ [m]) s2 f (List.zipWith Val.mul a1 w) (j1 ++ [j]) j2 vm v4
    have gw := reduceAxis_get npsum (s1 ++ [m]) s2 f w (j1 ++ [j]) j2 vm v4
    have e5 : (s1 ++ [m]) ++ s2 = s1 ++ m :: s2 := by simp
    have e6 : (j1 ++ [j]) ++ j2 = j1 ++ j :: j2 := by simp
    rw [e5, e6, ← ha2] at g
    rw [e5, e6, ← hw2] at gw
    have ew : ((List.range f).map fun t => w.getD (flat ((s1 ++ [m]) ++ f :: s2) ((j1 ++ [j]) ++ t :: j2)) .nan) =
        (List.range f).map fun t => w.getD (flat (s1 ++ (m * f) :: s2) (j1 ++ (j * f + t) :: j2)) .nan := by
      apply List.map_congr_left
      intro t _
      rw [flat_block _ _ _ _ _ _ _ _ hj]
    rw [ew] at gw
    refine ⟨_, rfl, ?_⟩
    rw [iter_zip_get w2 s1.length _ hzl _ _ _ (by rw [List.getElem?_zipWith, g, gw]) gw]
    congr 3
    congr 1
    apply List.map_congr_left
    intro t ht
    rw [flat_block _ _ _ _ _ _ _ _ hj]
    have hlt := flat_lt _ _ (valid_block s1 s2 j1 j2 m f j t hj hv (by simpa using ht))
    have hlta : flat (s1 ++ m * f :: s2) (j1 ++ (j * f + t) :: j2) < a.length := by omega
    have hltw : flat (s1 ++ m * f :: s2) (j1 ++ (j * f + t) :: j2) < w.length := by omega
    have e7 := iter_zip_get w s2.length a (by omega) _ _ _ (List.getElem?_eq_getElem hlta) (List.getElem?_eq_getElem hltw)
    rw [← ha1] at e7
    rw [List.getD_eq_getElem?_getD, List.getElem?_zipWith, e7, List.getElem?_eq_getElem hltw, List.getD_eq_getElem _ _ hltw,
      List.getD_eq_getElem _ _ hlta]
    rfl

end NBK.Binned
