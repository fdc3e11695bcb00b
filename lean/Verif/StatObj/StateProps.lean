import Verif.StatObj.CaseProps
set_option linter.unusedSimpArgs false
/-!
# C123: `from_state` and `reindex`
-/
namespace NBK.StatObj
open NBK.PySlice
variable {V : Type} [Num V]

omit [Num V] in
theorem zip_parts {α : Type} (l : List (String × α)) : (l.map Prod.fst).zip (l.map Prod.snd) = l := by
  induction l with
  | nil => rfl
  | cons p ps ih => rw [List.map_cons, List.map_cons, List.zip_cons_cons, ih]

omit [Num V] in
theorem Stat.shape_eq (st : Stat) : st.shape = st.coords.map fun p => p.2.idx.length := rfl

/-- C123: an object can always be rebuilt from its state. All is as before but for the mask, which is that of the variables as they are now, and the list of
fields to sum, which is the default one. -/
theorem fromState_obs (w : World V) (st : Stat) (h : Wf w st) :
    ∃ r : World V × Stat, fromState w st = .ok r ∧
      obs r.1 r.2 = { obs w st with mask := maskOf st.data.fields (st.data.rows w.cells), fsum := w.names.getD 0 [] } := by
  have hcl : (coordVals w (st.edges.map Prod.snd) (some (st.coords.map Prod.snd))).map List.length = st.shape := by
    unfold coordVals
    rw [List.map_map, List.map_map]
    apply List.map_congr_left
    intro p _
    simp [vals_length]
  have hce : st.dims.zip (coordVals w (st.edges.map Prod.snd) (some (st.coords.map Prod.snd))) = st.coords.map fun p => (p.1, p.2.vals Num.zero w.nums) := by
    have := zip_parts (st.coords.map fun p => (p.1, p.2.vals (Num.zero : V) w.nums))
    rw [List.map_map, List.map_map] at this
    rw [← this, ← h.ckeys]
    have hv : coordVals w (st.edges.map Prod.snd) (some (st.coords.map Prod.snd)) = (st.coords.map Prod.snd).map fun a => a.vals Num.zero w.nums := rfl
    rw [hv, List.map_map]
    rfl
  have hs : st.dims.length = (st.edges.map Prod.snd).length := by rw [← h.ekeys]; simp
  have hs2 : (st.shape.map fun n => n + 1) = (st.edges.map Prod.snd).map fun e => e.idx.length := by
    rw [List.map_map, Stat.shape_eq, List.map_map]
    exact h.sizes.symm
  have hs3 : ¬((coordVals w (st.edges.map Prod.snd) (some (st.coords.map Prod.snd))).map List.length ≠ st.shape ∨ st.data.idx.length ≠ st.shape.prod ∨ ¬ st.dims.Nodup) := by
    rw [not_or, not_or, not_not, not_not, not_not]
    exact ⟨hcl, h.dsize, h.dims⟩
  unfold fromState init
  rw [if_neg (by rw [not_not]; exact hs), if_neg (by rw [not_not]; exact hs2)]
  dsimp only
  rw [if_neg hs3]
  refine ⟨_, rfl, ?_⟩
  have he : st.dims.zip (st.edges.map Prod.snd) = st.edges := by rw [← h.ekeys]; exact zip_parts _
  have hev : ∀ l : List (List V), (st.edges.map fun p => (p.1, p.2.vals (Num.zero : V) (w.nums ++ l))) = st.edges.map fun p => (p.1, p.2.vals Num.zero w.nums) :=
    fun l => List.map_congr_left fun p hp => by rw [(h.edges p hp).vals Num.zero ⟨l, rfl⟩]
  have hcv := place_vals (Num.zero : V) w.nums [] (st.coords.map fun p => (p.1, p.2.vals (Num.zero : V) w.nums))
  rw [List.append_nil, List.map_map] at hcv
  unfold obs DArr.col
  dsimp only
  rw [he, hce, hev, fresh_rows _ _ _ (rows_length _ _).symm, fresh_vals _ _ _ _ (by unfold maskOf; rw [List.length_map, rows_length])]
  have hv : coordVals w (st.edges.map Prod.snd) (some (st.coords.map Prod.snd)) = st.coords.map (Prod.snd ∘ fun p => (p.1, p.2.vals (Num.zero : V) w.nums)) := by
    show (st.coords.map Prod.snd).map _ = _
    rw [List.map_map]
    rfl
  rw [hv, hcv]

/-- C123: the mask of an object rebuilt from its state need not be the mask it had: after a variable with a `nan` is set anew the element stays masked,
in the rebuilt object it is not. -/
theorem fromState_mask : (shown (base ++ [.setItem 0 "power" (List.replicate 6 (some 1)), .fromState 0]) 0).map Obs.mask =
      some [false, false, true, false, false, false] ∧
    (shown (base ++ [.setItem 0 "power" (List.replicate 6 (some 1)), .fromState 0]) 1).map Obs.mask = some [false, false, false, false, false, false] := by
  refine ⟨?_, ?_⟩ <;> decide +kernel

/-- The entry of a dictionary that is replaced, and the others. -/
theorem put_get {α : Type} (k : String) (v : α) (d : List (String × α)) (j : String) : get j (put k v d) = if j = k then some v else get j d := by
  induction d with
  | nil =>
    unfold put get
    by_cases h : j = k
    · simp [h]
    · rw [if_neg (Ne.symm h), if_neg h]; rfl
  | cons p d ih =>
    unfold put
    by_cases hp : p.1 = k
    · rw [if_pos hp]
      unfold get
      dsimp only
      by_cases h : j = k
      · simp [h]
      · rw [if_neg (Ne.symm h), if_neg h, if_neg (by rw [hp]; exact Ne.symm h)]
    · rw [if_neg hp]
      unfold get
      by_cases hj : p.1 = j
      · rw [if_pos hj, if_pos hj, if_neg (by rw [← hj]; exact hp)]
      · rw [if_neg hj, if_neg hj, ih]

/-- C123: `reindex` gives the dimension its new edges and their middles, the others keep theirs, and the variables are those computed. -/
theorem reindex_obs (w w' : World V) (st st' : Stat) (dim : String) (e : List V) (rows : List (List V)) (h : Wf w st)
    (hs : reindex w st dim e rows = .ok (w', st')) :
    get dim (obs w' st').edges = some e ∧ get dim (obs w' st').coords = some (mids e) ∧
    (∀ d, d ≠ dim → get d (obs w' st').edges = get d (obs w st).edges ∧ get d (obs w' st').coords = get d (obs w st).coords) ∧
    (∀ n, get n (obs w' st').cols = (get n st.data.fields).map fun s => rows.map fun r => r.getD s Num.zero) ∧
    (obs w' st').mask = maskOf st.data.fields rows ∧ (obs w' st').attrs = (obs w st).attrs ∧ (obs w' st').fsum = (obs w st).fsum := by
  unfold reindex at hs
  split at hs
  · cases hs
  dsimp only at hs
  split at hs
  · cases hs
  injection hs with hs
  injection hs with e1 e2
  have g : ∀ (d : String) (l : List (String × Arr)), get d (l.map fun p => (p.1, p.2.vals (Num.zero : V) w'.nums)) = (get d l).map fun a => a.vals Num.zero w'.nums :=
    fun d l => get_map _ _ _
  have g0 : ∀ (d : String) (l : List (String × Arr)), get d (l.map fun p => (p.1, p.2.vals (Num.zero : V) w.nums)) = (get d l).map fun a => a.vals Num.zero w.nums :=
    fun d l => get_map _ _ _
  have hn : w'.nums = w.nums ++ [e, mids e] := by rw [← e1]
  have old : ∀ (l : List (String × Arr)), (∀ p ∈ l, p.2.In w.nums) → ∀ d, (get d l).map (fun a => a.vals (Num.zero : V) w'.nums) = (get d l).map fun a => a.vals Num.zero w.nums := by
    intro l hl d
    cases hg : get d l with
    | none => rfl
    | some a =>
      rw [Option.map_some, Option.map_some, hn, (hl _ (get_mem _ _ _ hg)).vals Num.zero ⟨_, rfl⟩]
  refine ⟨?_, ?_, ?_, ?_, ?_, ?_, ?_⟩
  · show get dim (st'.edges.map _) = _
    rw [g, ← e2]
    dsimp only
    rw [put_get, if_pos rfl, hn]
    unfold Arr.vals
    simp only [Option.map_some, Option.some.injEq]
    have : (w.nums ++ [e, mids e]).getD w.nums.length [] = e := by
      rw [List.getD_eq_getElem?_getD, List.getElem?_append_right (le_refl _), Nat.sub_self]
      rfl
    rw [this, pick_range]
  · show get dim (st'.coords.map _) = _
    rw [g, ← e2]
    dsimp only
    rw [put_get, if_pos rfl, hn]
    unfold Arr.vals
    simp only [Option.map_some, Option.some.injEq]
    have : (w.nums ++ [e, mids e]).getD (w.nums.length + 1) [] = mids e := by
      rw [List.getD_eq_getElem?_getD, List.getElem?_append_right (by omega), Nat.add_sub_cancel_left]
      rfl
    rw [this]
    have hl : e.length - 1 = (mids e).length := by
      unfold mids
      rw [List.length_zipWith, List.length_tail]
      omega
    rw [hl, pick_range]
  · intro d hd
    refine ⟨?_, ?_⟩
    · show get d (st'.edges.map _) = get d (st.edges.map _)
      rw [g, g0, ← old st.edges h.edges, ← e2]
      dsimp only
      rw [put_get, if_neg hd]
    · show get d (st'.coords.map _) = get d (st.coords.map _)
      rw [g, g0, ← old st.coords h.coords, ← e2]
      dsimp only
      rw [put_get, if_neg hd]
  · intro n
    rw [obs_col, ← e1, ← e2]
    dsimp only
    unfold DArr.col
    rw [fresh_rows _ _ _ rfl]
  · show st'.mask.vals false w'.bits = _
    rw [← e1, ← e2]
    exact fresh_vals _ _ _ _ (by unfold maskOf; rw [List.length_map])
  · show st'.attrs.map _ = _
    rw [← e1, ← e2]
    rfl
  · show w'.names.getD st'.fsum [] = _
    rw [← e1, ← e2]
    exact getD_append_self _ _ _

end NBK.StatObj
