import Verif.Binned.BinLemmas
import Verif.Binned.TakeLemmas

/-!
# Lemmas about `reindex`
-/
set_option linter.unusedSimpArgs false
namespace NBK.Binned
variable {A : Type}

/-- No infinite value. -/
def NoInf (l : List Val) : Prop := ∀ v ∈ l, ∀ s, v ≠ .inf s

/-- The numbers among the values. -/
def nums (l : List Val) : List ℚ := l.filterMap Val.rat?

theorem nums_nil : nums [] = [] := rfl
theorem nums_fin (q : ℚ) (l : List Val) : nums (.fin q :: l) = q :: nums l := rfl
theorem nums_nan (l : List Val) : nums (.nan :: l) = nums l := rfl
theorem nums_inf (s : Bool) (l : List Val) : nums (.inf s :: l) = nums l := rfl

theorem npsum_fin (l : List ℚ) (s : ℚ) : (l.map Val.fin).foldl Val.add (.fin s) = .fin (s + l.sum) := by
  induction l generalizing s with
  | nil => simp
  | cons q l ih => rw [List.map_cons, List.foldl_cons, Val.add, ih, List.sum_cons]; congr 1; ring

theorem filter_nums (l : List Val) (h : NoInf l) : l.filter (fun v => v ≠ .nan) = (nums l).map Val.fin := by
  induction l with
  | nil => rfl
  | cons v l ih =>
    have ih' := ih fun x hx => h x (by simp [hx])
    cases v with
    | fin q => rw [List.filter_cons_of_pos (by simp), ih']; rfl
    | inf s => exact absurd rfl (h (.inf s) (by simp) s)
    | nan => rw [List.filter_cons_of_neg (by simp), ih']; rfl

theorem nansum_eq (l : List Val) (h : NoInf l) : nansum l = .fin (nums l).sum := by
  unfold nansum npsum
  rw [filter_nums l h, npsum_fin, zero_add]

theorem nanmean_eq (l : List Val) (h : NoInf l) :
    nanmean l = if nums l = [] then .nan else .fin ((nums l).sum / (nums l).length) := by
  unfold nanmean
  rw [nansum_eq l h, filter_nums l h, List.length_map]
  by_cases e : nums l = []
  · simp [e, Val.div]
  · rw [if_neg e]
    have : ((nums l).length : ℚ) ≠ 0 := by
      simpa [List.length_eq_zero_iff] using e
    simp [Val.div, this]

theorem nz_iter (k : Nat) (v : Val) : nz^[k] v = v ∨ nz^[k] v = nz v := by
  induction k generalizing v with
  | zero => exact Or.inl rfl
  | succ k ih =>
    rw [Function.iterate_succ_apply]
    have hi : nz (nz v) = nz v := by cases v <;> simp [nz]
    rcases ih (nz v) with h | h
    · exact Or.inr h
    · right; rw [h, hi]

theorem nz_nums (v : Val) (h : ∀ s, v ≠ .inf s) (l : List Val) : (nums (nz v :: l)).sum = (nums (v :: l)).sum := by
  cases v with
  | fin q => simp [nz, nums_fin, nums_nan]
  | inf s => exact absurd rfl (h s)
  | nan => simp [nz, nums_fin, nums_nan]

theorem nz_map (k : Nat) (l : List Val) (h : NoInf l) : NoInf (l.map (nz^[k])) ∧ (nums (l.map (nz^[k]))).sum = (nums l).sum := by
  induction l with
  | nil => exact ⟨by simp [NoInf], rfl⟩
  | cons v l ih =>
    obtain ⟨h1, h2⟩ := ih fun x hx => h x (by simp [hx])
    have hv := h v (by simp)
    have hz : ∀ s, nz v ≠ .inf s := by
      intro s; cases v with
      | fin q => simp [nz]
      | inf t => exact absurd rfl (hv t)
      | nan => simp [nz]
    have hsum : ∀ (x : Val) (l : List Val), (nums (x :: l)).sum = (nums [x]).sum + (nums l).sum := by
      intro x l
      cases x <;> simp [nums_fin, nums_nan, nums_inf, nums_nil]
    refine ⟨?_, ?_⟩
    · intro x hx s
      rw [List.map_cons] at hx
      rcases List.mem_cons.mp hx with rfl | hx
      · rcases nz_iter k v with e | e
        · rw [e]; exact hv s
        · rw [e]; exact hz s
      · exact h1 x hx s
    · rw [List.map_cons, hsum, h2, hsum v l]
      congr 1
      rcases nz_iter k v with e | e
      · rw [e]
      · rw [e]; exact nz_nums v hv []

/-- The sum as computed with passes over the axes of length one. -/
theorem sum_passes (k1 k2 : Nat) (l : List Val) (h : NoInf l) :
    (fun v => nansum [v])^[k1] (nansum (l.map ((fun v => nansum [v])^[k2]))) = .fin (nums l).sum := by
  have e : (fun v => nansum [v]) = nz := by funext v; exact nansum_one v
  rw [e]
  obtain ⟨h1, h2⟩ := nz_map k2 l h
  rw [nansum_eq _ h1, h2]
  rcases nz_iter k1 (.fin (nums l).sum) with h | h
  · exact h
  · rw [h]; simp [nz]

theorem mean_passes (k1 k2 : Nat) (l : List Val) :
    (fun v => nanmean [v])^[k1] (nanmean (l.map ((fun v => nanmean [v])^[k2]))) = nanmean l := by
  have e : (fun v => nanmean [v]) = id := by funext v; exact nanmean_one v
  rw [e, Function.iterate_id, Function.iterate_id]; simp

/-- The contribution of a value with a finite weight. -/
def wnum : Val → ℚ → ℚ
  | .fin a, q => a * q
  | _, _ => 0

theorem wu_fin (x : Val) (hx : ∀ s, x ≠ .inf s) (q : ℚ) : (∀ s, wu x (.fin q) ≠ .inf s) ∧ wnum (wu x (.fin q)) q = wnum x q := by
  cases x with
  | inf s => exact absurd rfl (hx s)
  | nan =>
    by_cases h : q = 0
    · simp [wu, nz, Val.mul, Val.div, h, wnum]
    · simp [wu, nz, Val.mul, Val.div, h, wnum]
  | fin a =>
    by_cases h : q = 0
    · simp [wu, nz, Val.mul, Val.div, h, wnum]
    · simp [wu, nz, Val.mul, Val.div, h, wnum]

theorem wu_iter (k : Nat) (x : Val) (hx : ∀ s, x ≠ .inf s) (q : ℚ) :
    (∀ s, (fun v => wu v (.fin q))^[k] x ≠ .inf s) ∧ wnum ((fun v => wu v (.fin q))^[k] x) q = wnum x q := by
  induction k generalizing x with
  | zero => exact ⟨hx, rfl⟩
  | succ k ih =>
    rw [Function.iterate_succ_apply]
    obtain ⟨h1, h2⟩ := wu_fin x hx q
    obtain ⟨h3, h4⟩ := ih _ h1
    exact ⟨h3, h4.trans h2⟩

theorem wu_stable (k : Nat) (x W : ℚ) (hW : W ≠ 0) : (fun v => wu v (.fin W))^[k] (.fin x) = .fin x := by
  induction k with
  | zero => rfl
  | succ k ih =>
    rw [Function.iterate_succ_apply]
    have : wu (.fin x) (.fin W) = .fin x := by
      simp [wu, nz, Val.mul, Val.div, hW]
    rw [this, ih]

/-- The weighted mean as computed with passes over the axes of length one. -/
theorem wmean_passes (k1 k2 : Nat) (f : Nat) (x : Nat → Val) (w : Nat → ℚ) (hx : ∀ t < f, ∀ s, x t ≠ .inf s)
    (hW : ((List.range f).map w).sum ≠ 0) :
    (fun v => wu v (npsum ((List.range f).map fun t => Val.fin (w t))))^[k1]
      ((nansum ((List.range f).map fun t => ((fun v => wu v (Val.fin (w t)))^[k2] (x t)).mul (Val.fin (w t)))).div
        (npsum ((List.range f).map fun t => Val.fin (w t)))) =
    .fin (((List.range f).map fun t => wnum (x t) (w t)).sum / ((List.range f).map w).sum) := by
  have e1 : npsum ((List.range f).map fun t => Val.fin (w t)) = .fin ((List.range f).map w).sum := by
    unfold npsum
    have : ((List.range f).map fun t => Val.fin (w t)) = ((List.range f).map w).map Val.fin := by simp
    rw [this, npsum_fin, zero_add]
  have hn : ∀ (L : List Nat), (∀ t ∈ L, t < f) →
      NoInf (L.map fun t => ((fun v => wu v (Val.fin (w t)))^[k2] (x t)).mul (Val.fin (w t))) ∧
      (nums (L.map fun t => ((fun v => wu v (Val.fin (w t)))^[k2] (x t)).mul (Val.fin (w t)))).sum = (L.map fun t => wnum (x t) (w t)).sum := by
    intro L hL
    induction L with
    | nil => exact ⟨by simp [NoInf], rfl⟩
    | cons t L ih =>
      obtain ⟨i1, i2⟩ := ih fun u hu => hL u (by simp [hu])
      obtain ⟨h1, h2⟩ := wu_iter k2 (x t) (hx t (hL t (by simp))) (w t)
      rw [List.map_cons, List.map_cons, List.sum_cons, ← i2, ← h2]
      generalize (fun v => wu v (Val.fin (w t)))^[k2] (x t) = y at h1 h2
      cases y with
      | inf s => exact absurd rfl (h1 s)
      | nan =>
        refine ⟨?_, by rw [Val.mul, nums_nan]; simp [wnum]⟩
        intro v hv s
        rcases List.mem_cons.mp hv with rfl | hv
        · simp [Val.mul]
        · exact i1 v hv s
      | fin a =>
        refine ⟨?_, by rw [Val.mul, nums_fin, List.sum_cons]; rfl⟩
        intro v hv s
        rcases List.mem_cons.mp hv with rfl | hv
        · simp [Val.mul]
        · exact i1 v hv s
  obtain ⟨n1, n2⟩ := hn (List.range f) fun t ht => by simpa using ht
  rw [e1, nansum_eq _ n1, n2]
  have : ∀ a : ℚ, (Val.fin a).div (.fin ((List.range f).map w).sum) = .fin (a / ((List.range f).map w).sum) := by
    intro a; simp [Val.div, hW]
  rw [this, wu_stable _ _ _ hW]

/-- The elements that are not cut off. -/
theorem cut_get {α : Type} (d : α) (s1 s2 : List Nat) (n kept : Nat) (a : List α) (ha : a.length = (s1 ++ n :: s2).prod) (hk : kept ≤ n)
    (j1 : List Nat) (j : Nat) (j2 : List Nat) (hj : j1.length = s1.length) (hv : Valid (s1 ++ kept :: s2) (j1 ++ j :: j2)) :
    (takeAxis d (s1 ++ n :: s2) s1.length (List.range kept) a)[flat (s1 ++ kept :: s2) (j1 ++ j :: j2)]? = a[flat (s1 ++ n :: s2) (j1 ++ j :: j2)]? ∧
    Valid (s1 ++ n :: s2) (j1 ++ j :: j2) := by
  have es : (s1 ++ n :: s2).set s1.length (List.range kept).length = s1 ++ kept :: s2 := by
    rw [List.set_append_right _ _ le_rfl]; simp
  have h := takeAxis_get d (s1 ++ n :: s2) s1.length (by simp) (List.range kept) a (j1 ++ j :: j2) (by rw [es]; exact hv)
  obtain ⟨v1, v2⟩ := (valid_append _ _ _ _ hj).mp hv
  obtain ⟨v3, v4⟩ := (valid_cons _ _ _ _).mp v2
  have vv : Valid (s1 ++ n :: s2) (j1 ++ j :: j2) := (valid_append _ _ _ _ hj).mpr ⟨v1, (valid_cons _ _ _ _).mpr ⟨by omega, v4⟩⟩
  have ej : (j1 ++ j :: j2).getD s1.length 0 = j := by
    rw [← hj]; simp [List.getD_eq_getElem?_getD]
  have er : (List.range kept).getD j 0 = j := by rw [List.getD_eq_getElem _ _ (by simpa using v3)]; simp
  have eset : (j1 ++ j :: j2).set s1.length j = j1 ++ j :: j2 := by
    rw [List.set_append_right _ _ (by omega), hj]; simp
  rw [es, ej, er, eset] at h
  refine ⟨?_, vv⟩
  rw [h]
  have hlt := flat_lt _ _ vv
  rw [← ha] at hlt
  rw [List.getD_eq_getElem _ _ hlt, List.getElem?_eq_getElem hlt]

end NBK.Binned
