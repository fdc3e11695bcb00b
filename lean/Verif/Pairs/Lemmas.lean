import Verif.Pairs.Model
import Verif.Batch.Lemmas
import Verif.Comm.Basic
import Mathlib.Tactic.FieldSimp
import Mathlib.Tactic.Ring
import Mathlib.Tactic.Linarith

set_option linter.unusedSimpArgs false

/-! Lemmas on the reduction of pair counts. -/
namespace NBK.Pairs

theorem mapM_ok {α β : Type} (f : α → Except Err β) (R : α → β → Prop) (l : List α)
    (h : ∀ a ∈ l, ∃ b, f a = .ok b ∧ R a b) : ∃ l', l.mapM f = .ok l' ∧ List.Forall₂ R l l' := by
  induction l with
  | nil => exact ⟨[], rfl, .nil⟩
  | cons a l ih =>
    obtain ⟨b, hb, hR⟩ := h a (by simp)
    obtain ⟨l', hl, hF⟩ := ih fun x hx => h x (by simp [hx])
    refine ⟨b :: l', ?_, .cons hR hF⟩
    rw [List.mapM_cons, hb, hl]; rfl

theorem forall₂_fst {α β : Type} {l : List (String × α)} {l' : List (String × β)}
    (h : List.Forall₂ (fun c d => d.1 = c.1) l l') : l.map Prod.fst = l'.map Prod.fst := by
  induction h with
  | nil => rfl
  | cons h _ ih => rw [List.map_cons, List.map_cons, ih, h]

/-- `x` holds the counts `tot` and averages with the pair-weighted sums `num`; empty bins have average zero if Corrfunc says so (`q`). -/
structure Rep (q : ℚ) (names : List String) (n : Nat) (tot : Nat → Nat) (num : String → Nat → ℚ) (x : Res) : Prop where
  np : x.npairs = (List.range n).map tot
  nm : x.cols.map Prod.fst = names
  vals : ∀ c ∈ x.cols, ∃ f : Nat → ℚ, c.2 = (List.range n).map (fun b => some (f b)) ∧
    ∀ b < n, f b * tot b = num c.1 b ∧ (q = 0 → tot b = 0 → f b = 0)

theorem Rep.init {q names n tot num x} (h : Rep q names n tot num x) (hv : ∀ c ∈ names, c ∈ valid) : x.init = x := by
  have : (x.cols.filter fun c => valid.contains c.1) = x.cols := by
    rw [List.filter_eq_self]
    intro c hc
    have : c.1 ∈ names := by rw [← h.nm]; exact List.mem_map_of_mem hc
    simpa using hv _ this
  unfold Res.init
  rw [this]

theorem Rep.get {q names n tot num x} (h : Rep q names n tot num x) (c : String) (hc : c ∈ names) :
    ∃ f : Nat → ℚ, x.get c = .ok ((List.range n).map fun b => some (f b)) ∧
      ∀ b < n, f b * tot b = num c b ∧ (q = 0 → tot b = 0 → f b = 0) := by
  rw [← h.nm] at hc
  obtain ⟨p, hp, rfl⟩ := List.mem_map.mp hc
  obtain ⟨q, hq⟩ : ∃ q, x.cols.find? (fun c => c.1 == p.1) = some q := by
    rw [← Option.isSome_iff_exists, List.find?_isSome]
    exact ⟨p, hp, by simp⟩
  have hqm := List.mem_of_find?_eq_some hq
  have hqe : q.1 = p.1 := by simpa using List.find?_some hq
  obtain ⟨f, hf, hn⟩ := h.vals q hqm
  refine ⟨f, ?_, ?_⟩
  · unfold Res.get; rw [hq]; simp [hf]
  · rw [← hqe]; exact hn

theorem addCol_eq (n : Nat) (t1 t2 : Nat → Nat) (f1 f2 : Nat → ℚ) :
    addCol ((List.range n).map t1) ((List.range n).map fun b => some (f1 b))
      ((List.range n).map t2) ((List.range n).map fun b => some (f2 b)) =
    (List.range n).map fun b => some
      (if t1 b + t2 b > 0 then (f1 b * t1 b + f2 b * t2 b) / ((t1 b + t2 b : Nat) : ℚ)
        else f1 b * t1 b + f2 b * t2 b) := by
  unfold addCol
  apply List.ext_getElem
  · simp
  · intro i h1 h2
    simp [Val.add, Val.mulNat, Val.divNat]
    split <;> simp

theorem Rep.add {q names n t1 t2 m1 m2 x y} (hx : Rep q names n t1 m1 x) (hy : Rep q names n t2 m2 y)
    (hv : ∀ c ∈ names, c ∈ valid) (hs : x.shape = y.shape) :
    ∃ z, x.add y = .ok z ∧ z.shape = x.shape ∧
      Rep q names n (fun b => t1 b + t2 b) (fun c b => m1 c b + m2 c b) z := by
  obtain ⟨cols, hcols, hF⟩ := mapM_ok (fun c : String × List Val => do
      let v ← y.get c.1
      pure (c.1, addCol x.npairs c.2 y.npairs v))
    (fun c d => d.1 = c.1 ∧ ∃ f : Nat → ℚ, d.2 = (List.range n).map (fun b => some (f b)) ∧
      ∀ b < n, f b * ((t1 b + t2 b : Nat) : ℚ) = m1 c.1 b + m2 c.1 b ∧ (q = 0 → t1 b + t2 b = 0 → f b = 0)) x.cols (by
    intro c hc
    have hcn : c.1 ∈ names := by rw [← hx.nm]; exact List.mem_map_of_mem hc
    obtain ⟨f2, hg, h2⟩ := hy.get c.1 hcn
    obtain ⟨f1, he, h1⟩ := hx.vals c hc
    refine ⟨(c.1, addCol x.npairs c.2 y.npairs ((List.range n).map fun b => some (f2 b))), ?_, rfl, ?_⟩
    · rw [hg]; rfl
    · refine ⟨fun b => if t1 b + t2 b > 0 then (f1 b * t1 b + f2 b * t2 b) / ((t1 b + t2 b : Nat) : ℚ)
        else f1 b * t1 b + f2 b * t2 b, ?_, ?_⟩
      · rw [hx.np, hy.np, he]; exact addCol_eq n t1 t2 f1 f2
      · intro b hb
        dsimp only
        have e1 := (h1 b hb).1
        have e2 := (h2 b hb).1
        refine ⟨?_, fun _ h0 => by
          have z1 : t1 b = 0 := by omega
          have z2 : t2 b = 0 := by omega
          simp [z1, z2]⟩
        split
        · rename_i hp
          have : (((t1 b + t2 b : Nat) : ℚ)) ≠ 0 := by
            have : t1 b + t2 b ≠ 0 := by omega
            exact_mod_cast this
          rw [div_mul_cancel₀ _ this, e1, e2]
        · rename_i hp
          have z1 : t1 b = 0 := by omega
          have z2 : t2 b = 0 := by omega
          rw [z1] at e1; rw [z2] at e2
          simp at e1 e2
          simp [z1, z2, ← e1, ← e2])
  have hrep : Rep q names n (fun b => t1 b + t2 b) (fun c b => m1 c b + m2 c b)
      { shape := x.shape, npairs := List.zipWith (· + ·) x.npairs y.npairs, cols := cols } := by
    refine ⟨?_, ?_, ?_⟩
    · dsimp only
      rw [hx.np, hy.np, List.zipWith_map]
      apply List.ext_getElem <;> simp
    · dsimp only
      rw [← hx.nm]
      exact (forall₂_fst (hF.imp fun _ _ h => h.1)).symm
    · dsimp only
      intro d hd
      obtain ⟨i, hi, rfl⟩ := List.mem_iff_getElem.mp hd
      have hlen := hF.length_eq
      have := (List.forall₂_iff_get.mp hF).2 i (by omega) hi
      simp only [List.get_eq_getElem] at this
      obtain ⟨h1, f, hf, hn⟩ := this
      exact ⟨f, hf, by rw [h1]; exact hn⟩
  refine ⟨{ shape := x.shape, npairs := List.zipWith (· + ·) x.npairs y.npairs, cols := cols }, ?_, rfl, hrep⟩
  unfold Res.add
  rw [if_neg (by simpa using hs), hcols]
  show Except.ok _ = Except.ok _
  rw [hrep.init hv]

theorem pairsIn_nil {A B : Type} (bin : A → B → Option Nat) (Y : List B) (b : Nat) : pairsIn bin [] Y b = [] := rfl

theorem pairsIn_append {A B : Type} (bin : A → B → Option Nat) (X X' : List A) (Y : List B) (b : Nat) :
    pairsIn bin (X ++ X') Y b = pairsIn bin X Y b ++ pairsIn bin X' Y b := by
  simp [pairsIn]

/-- The quantity averaged by a column. -/
def colVal {A B : Type} (w s : A → B → ℚ) (c : String) : A → B → ℚ := if c = "weightavg" then w else s

/-- Sum over pairs. -/
def psum {A B : Type} (f : A → B → ℚ) (P : List (A × B)) : ℚ := (P.map fun p => f p.1 p.2).sum

theorem psum_append {A B : Type} (f : A → B → ℚ) (P Q : List (A × B)) : psum f (P ++ Q) = psum f P + psum f Q := by
  simp [psum]

theorem sepColumn_valid (md : Mode) : sepColumn md ∈ valid ∧ sepColumn md ≠ "weightavg" := by
  cases md <;> decide

theorem names_valid (md : Mode) : ∀ c ∈ [sepColumn md, "weightavg"], c ∈ valid := by
  intro c hc
  simp only [List.mem_cons, List.not_mem_nil, or_false] at hc
  rcases hc with rfl | rfl
  · exact (sepColumn_valid md).1
  · decide

theorem corrfunc_rep {A B : Type} (n : Nat) (bin : A → B → Option Nat) (w s : A → B → ℚ) (md : Mode) (q : ℚ)
    (Y : List B) (X : List A) :
    Rep q [sepColumn md, "weightavg"] n (fun b => (pairsIn bin X Y b).length)
      (fun c b => psum (colVal w s c) (pairsIn bin X Y b))
      (corrfunc n bin w s (sepColumn md) (some q) Y X).init := by
  have hcols : (corrfunc n bin w s (sepColumn md) (some q) Y X).init.cols =
      [ (sepColumn md, (List.range n).map fun b =>
        let P := pairsIn bin X Y b
        if P.length = 0 then some q else some ((P.map fun p => s p.1 p.2).sum / P.length)),
        ("weightavg", (List.range n).map fun b =>
        let P := pairsIn bin X Y b
        if P.length = 0 then some q else some ((P.map fun p => w p.1 p.2).sum / P.length)) ] := by
    unfold corrfunc Res.init
    cases md <;> simp [valid, sepColumn]
  have key : ∀ (g : A → B → ℚ) (b : Nat),
      (if (pairsIn bin X Y b).length = 0 then q else psum g (pairsIn bin X Y b) / ((pairsIn bin X Y b).length : ℚ)) *
        ((pairsIn bin X Y b).length : ℚ) = psum g (pairsIn bin X Y b) := by
    intro g b
    split
    · rename_i h
      rw [List.length_eq_zero_iff] at h
      simp [h, psum]
    · rename_i h
      have : ((pairsIn bin X Y b).length : ℚ) ≠ 0 := by exact_mod_cast h
      rw [div_mul_cancel₀ _ this]
  refine ⟨rfl, ?_, ?_⟩
  · rw [hcols]; rfl
  · intro c hc
    rw [hcols] at hc
    simp only [List.mem_cons, List.not_mem_nil, or_false] at hc
    rcases hc with rfl | rfl
    · refine ⟨fun b => if (pairsIn bin X Y b).length = 0 then q
        else psum s (pairsIn bin X Y b) / ((pairsIn bin X Y b).length : ℚ), ?_, ?_⟩
      · apply List.map_congr_left
        intro b _
        dsimp only
        split <;> rfl
      · intro b _
        refine ⟨?_, fun hq h0 => by dsimp only; rw [if_pos h0, hq]⟩
        rw [key s b]
        simp [colVal, (sepColumn_valid md).2]
    · refine ⟨fun b => if (pairsIn bin X Y b).length = 0 then q
        else psum w (pairsIn bin X Y b) / ((pairsIn bin X Y b).length : ℚ), ?_, ?_⟩
      · apply List.map_congr_left
        intro b _
        dsimp only
        split <;> rfl
      · intro b _
        refine ⟨?_, fun hq h0 => by dsimp only; rw [if_pos h0, hq]⟩
        rw [key w b]
        simp [colVal]

theorem filterMap_range {A : Type} (X : List A) : (List.range X.length).filterMap (fun i => X[i]?) = X := by
  induction X with
  | nil => rfl
  | cons a X ih =>
    rw [List.length_cons, List.range_succ_eq_map, List.filterMap_cons]
    simp only [List.getElem?_cons_zero, List.filterMap_map]
    congr 1

/-- The chunk loop, from an accumulated result on. -/
theorem fold_rep {A B : Type} (n : Nat) (bin : A → B → Option Nat) (w s : A → B → ℚ) (md : Mode) (q : ℚ)
    (Y : List B) (Xs : List (List A)) (X0 : List A) (x : Res) (hs : x.shape = [n])
    (hx : Rep q [sepColumn md, "weightavg"] n (fun b => (pairsIn bin X0 Y b).length)
      (fun c b => psum (colVal w s c) (pairsIn bin X0 Y b)) x) :
    ∃ z, Xs.foldlM (fun (pc : Option Res) X => accum pc (corrfunc n bin w s (sepColumn md) (some q) Y X).init)
        (some x) = .ok (some z) ∧ z.shape = [n] ∧
      Rep q [sepColumn md, "weightavg"] n (fun b => (pairsIn bin (X0 ++ Xs.flatten) Y b).length)
        (fun c b => psum (colVal w s c) (pairsIn bin (X0 ++ Xs.flatten) Y b)) z := by
  induction Xs generalizing X0 x with
  | nil => exact ⟨x, rfl, hs, by simpa using hx⟩
  | cons X Xs ih =>
    obtain ⟨y, hy, hys, hyr⟩ := hx.add (corrfunc_rep n bin w s md q Y X) (names_valid md) (by rw [hs]; rfl)
    have hyr' : Rep q [sepColumn md, "weightavg"] n (fun b => (pairsIn bin (X0 ++ X) Y b).length)
        (fun c b => psum (colVal w s c) (pairsIn bin (X0 ++ X) Y b)) y := by
      simpa only [pairsIn_append, List.length_append, psum_append] using hyr
    obtain ⟨z, hz, hzs, hzr⟩ := ih (X0 ++ X) y (by rw [hys, hs]) hyr'
    refine ⟨z, ?_, hzs, ?_⟩
    · rw [List.foldlM_cons]
      have : accum (some x) (corrfunc n bin w s (sepColumn md) (some q) Y X).init = .ok (some y) := by
        unfold accum
        simp only [Option.elim_some]
        rw [hy]; rfl
      rw [this]
      exact hz
    · simpa [List.append_assoc] using hzr

theorem runRank_rep {A B : Type} (n : Nat) (bin : A → B → Option Nat) (w s : A → B → ℚ) (md : Mode) (q : ℚ)
    (Y : List B) (sp : Bool) (X : List A) :
    ∃ z, runRank (corrfunc n bin w s (sepColumn md) (some q) Y) sp X = .ok z ∧ z.shape = [n] ∧
      Rep q [sepColumn md, "weightavg"] n (fun b => (pairsIn bin X Y b).length)
        (fun c b => psum (colVal w s c) (pairsIn bin X Y b)) z := by
  obtain ⟨N, hN, hNp⟩ : ∃ N, N = (if sp = true then 10 else 1) ∧ 0 < N := ⟨_, rfl, by split <;> omega⟩
  have hlen := Batch.arraySplit_length (List.range X.length) N
  have hflat := Batch.arraySplit_flatten (List.range X.length) N hNp
  obtain ⟨c, cs, hcs⟩ : ∃ c cs, Batch.arraySplit (List.range X.length) N = c :: cs := by
    cases h : Batch.arraySplit (List.range X.length) N with
    | nil => rw [h] at hlen; simp at hlen; omega
    | cons c cs => exact ⟨c, cs, rfl⟩
  obtain ⟨g, hg⟩ : ∃ g : List Nat → List A, g = fun chunk => chunk.filterMap fun i => X[i]? := ⟨_, rfl⟩
  have hX : g c ++ (cs.map g).flatten = X := by
    have : X = (c :: cs).flatten.filterMap fun i => X[i]? := by
      rw [← hcs, hflat, filterMap_range]
    conv_rhs => rw [this]
    rw [List.flatten_cons, List.filterMap_append, List.filterMap_flatten, hg]
  obtain ⟨z, hz, hzs, hzr⟩ := fold_rep n bin w s md q Y (cs.map g) (g c)
    (corrfunc n bin w s (sepColumn md) (some q) Y (g c)).init rfl (corrfunc_rep n bin w s md q Y (g c))
  rw [hX] at hzr
  refine ⟨z, ?_, hzs, hzr⟩
  unfold runRank
  simp only [← hN, hcs, List.foldlM_cons]
  rw [List.foldlM_map] at hz
  simp only [hg] at hz
  show ((accum none _).bind _).bind _ = _
  simp only [accum, Option.elim_none, Except.bind] at hz ⊢
  rw [hz]
  rfl

/-- The shape after the optional reshape. -/
def finalShape (n : Nat) (m : Option Nat) : List Nat := m.elim [n] fun k => [n / k, k]

theorem reshape_rep {q : ℚ} {names : List String} {n : Nat} {t num} {x : Res} (h : Rep q names n t num x) (hs : x.shape = [n])
    (m : Option Nat) (hm : ∀ k, m = some k → 0 < k ∧ k ∣ n) :
    ∃ z, m.elim (Except.ok x) x.reshape = .ok z ∧ z.shape = finalShape n m ∧ Rep q names n t num z := by
  cases m with
  | none => exact ⟨x, rfl, hs, h⟩
  | some k =>
    obtain ⟨hk, hd⟩ := hm k rfl
    have hl : x.npairs.length = n := by rw [h.np]; simp
    refine ⟨{ x with shape := [n / k, k] }, ?_, rfl, ⟨h.np, h.nm, h.vals⟩⟩
    simp only [Option.elim_some]
    unfold Res.reshape
    rw [hl, if_neg]
    rintro (h0 | h0)
    · omega
    · exact h0 (Nat.mod_eq_zero_of_dvd hd)

theorem reduce_rep {q : ℚ} {names : List String} {n : Nat} (pcs : List Res) (sh : List Nat) (t : Nat → Nat → Nat)
    (num : Nat → String → Nat → ℚ) (hv : ∀ c ∈ names, c ∈ valid)
    (h : ∀ r, ∀ hr : r < pcs.length, pcs[r].shape = sh ∧ Rep q names n (t r) (num r) pcs[r]) (tree : Tree)
    (ht : ∀ r ∈ tree.ranks, r < pcs.length) :
    ∃ z, reduce pcs tree = .ok z ∧ z.shape = sh ∧
      Rep q names n (fun b => (tree.ranks.map fun r => t r b).sum) (fun c b => (tree.ranks.map fun r => num r c b).sum) z := by
  induction tree with
  | leaf r =>
    have hr := ht r (by simp [Tree.ranks])
    refine ⟨pcs[r], ?_, (h r hr).1, ?_⟩
    · simp [reduce, hr]
    · simpa [Tree.ranks] using (h r hr).2
  | node l r ihl ihr =>
    obtain ⟨x, hx, hxs, hxr⟩ := ihl fun a ha => ht a (by simp [Tree.ranks, ha])
    obtain ⟨y, hy, hys, hyr⟩ := ihr fun a ha => ht a (by simp [Tree.ranks, ha])
    obtain ⟨z, hz, hzs, hzr⟩ := hxr.add hyr hv (by rw [hxs, hys])
    refine ⟨z, ?_, by rw [hzs, hxs], ?_⟩
    · simp only [reduce, hx, hy]; exact hz
    · simpa [Tree.ranks] using hzr

theorem finish_rep {q : ℚ} {n : Nat} {t num} {x : Res} {md : Mode} (h : Rep q [sepColumn md, "weightavg"] n t num x) :
    ∃ f : Nat → ℚ, (∀ b < n, f b * t b = num (sepColumn md) b ∧ (q = 0 → t b = 0 → f b = 0)) ∧
      finish (sepColumn md) x = .ok ⟨x.shape, (List.range n).map fun b =>
        ⟨some (f b), t b, some (if t b = 0 then 0 else num "weightavg" b)⟩⟩ := by
  obtain ⟨f, hf, hfn⟩ := h.get (sepColumn md) (by simp)
  obtain ⟨g, hg, hgn⟩ := h.get "weightavg" (by simp)
  refine ⟨f, hfn, ?_⟩
  unfold finish
  rw [hf, hg]
  show Except.ok _ = Except.ok _
  congr 2
  rw [h.np]
  apply List.ext_getElem
  · simp
  · intro i h1 h2
    have hi : i < n := by simpa using h2
    simp only [List.getElem_map, List.getElem_zip, List.getElem_range, Val.mulNat, Option.map_some, (hgn i hi).1]
    split <;> rfl

theorem callAll_rep {A B : Type} (n : Nat) (bin : A → B → Option Nat) (w s : A → B → ℚ) (md : Mode) (q : ℚ)
    (Y : Nat → List B) (m : Option Nat) (hm : ∀ k, m = some k → 0 < k ∧ k ∣ n) (sp : Bool) (tree : Tree)
    (X : Nat → List A) (P : Nat) (ht : ∀ r ∈ tree.ranks, r < P) :
    ∃ f : Nat → ℚ,
      (∀ b < n, f b * ((tree.ranks.map fun r => (pairsIn bin (X r) (Y r) b).length).sum : Nat) =
        (tree.ranks.map fun r => psum s (pairsIn bin (X r) (Y r) b)).sum ∧
        (q = 0 → (tree.ranks.map fun r => (pairsIn bin (X r) (Y r) b).length).sum = 0 → f b = 0)) ∧
      callAll (fun d => corrfunc n bin w s (sepColumn md) (some q) (Y d)) (sepColumn md) m sp tree
        ((List.range P).map X) = .ok ⟨finalShape n m, (List.range n).map fun b =>
        ⟨some (f b), (tree.ranks.map fun r => (pairsIn bin (X r) (Y r) b).length).sum,
          some (tree.ranks.map fun r => psum w (pairsIn bin (X r) (Y r) b)).sum⟩⟩ := by
  obtain ⟨pcs, hpcs, hF⟩ := mapM_ok (fun f : List A × Nat => do
      let pc ← runRank (corrfunc n bin w s (sepColumn md) (some q) (Y f.2)) sp f.1
      m.elim (.ok pc) pc.reshape)
    (fun f z => z.shape = finalShape n m ∧ Rep q [sepColumn md, "weightavg"] n
        (fun b => (pairsIn bin f.1 (Y f.2) b).length)
        (fun c b => psum (colVal w s c) (pairsIn bin f.1 (Y f.2) b)) z)
    ((List.range P).map X).zipIdx (by
      intro f _
      obtain ⟨x, hx, hxs, hxr⟩ := runRank_rep n bin w s md q (Y f.2) sp f.1
      obtain ⟨z, hz, hzs, hzr⟩ := reshape_rep hxr hxs m hm
      refine ⟨z, ?_, hzs, hzr⟩
      simp only [hx]
      exact hz)
  have hlen : pcs.length = P := by simpa using hF.length_eq.symm
  have hget : ∀ r, ∀ hr : r < pcs.length, pcs[r].shape = finalShape n m ∧ Rep q [sepColumn md, "weightavg"] n
      (fun b => (pairsIn bin (X r) (Y r) b).length)
      (fun c b => psum (colVal w s c) (pairsIn bin (X r) (Y r) b)) pcs[r] := by
    intro r hr
    have := (List.forall₂_iff_get.mp hF).2 r (by simpa using hlen ▸ hr) hr
    simpa using this
  obtain ⟨z, hz, hzs, hzr⟩ := reduce_rep (q := q) (names := [sepColumn md, "weightavg"]) pcs (finalShape n m)
    (fun r b => (pairsIn bin (X r) (Y r) b).length)
    (fun r c b => psum (colVal w s c) (pairsIn bin (X r) (Y r) b)) (names_valid md) hget tree
    (fun r hr => by rw [hlen]; exact ht r hr)
  obtain ⟨f, hf, hfin⟩ := finish_rep hzr
  refine ⟨f, ?_, ?_⟩
  · intro b hb
    have := hf b hb
    simpa [colVal, (sepColumn_valid md).2] using this
  · unfold callAll
    rw [hpcs]
    show (reduce pcs tree).bind _ = _
    rw [hz]
    show finish _ z = _
    rw [hfin, hzs]
    congr 2
    apply List.map_congr_left
    intro b _
    congr 2
    simp only [colVal, if_true]
    split
    · rename_i h0
      symm
      rw [List.sum_eq_zero]
      intro v hv
      obtain ⟨r, hr, rfl⟩ := List.mem_map.mp hv
      have : (pairsIn bin (X r) (Y r) b).length = 0 := by
        rw [List.sum_eq_zero_iff] at h0
        exact h0 _ (List.mem_map_of_mem hr)
      rw [List.length_eq_zero_iff] at this
      simp [this, psum]
    · rfl

/-! ### Decomposition -/

theorem pairsIn_eq {A B : Type} (bin : A → B → Option Nat) (X : List A) (Y : List B) (b : Nat) :
    pairsIn bin X Y b = X.flatMap fun a => (Y.filter fun c => bin a c == some b).map fun c => (a, c) := by
  unfold pairsIn
  rw [List.filter_flatMap]
  congr 1
  funext a
  rw [List.filter_map]
  rfl

theorem exchange1_eq {A B : Type} (lay : Layout A B) (D : List (List A)) (d : Nat) :
    exchange1 lay D d = D.flatten.filter fun a => lay.owner a == d := by
  unfold exchange1
  rw [List.filter_flatten, List.flatMap_def]

theorem exchange2_eq {A B : Type} (lay : Layout A B) (D : List (List B)) (d : Nat) :
    exchange2 lay D d = D.flatten.filter fun c => (lay.ghosts c).contains d := by
  unfold exchange2
  rw [List.filter_flatten, List.flatMap_def]

/-- A rank has all the secondaries of its primaries. -/
theorem pairsIn_local {A B : Type} (bin : A → B → Option Nat) (lay : Layout A B) (sm bm : ℚ) (D1 : List (List A))
    (D2 : List (List B)) (d b : Nat)
    (hghost : ∀ a ∈ D1.flatten, ∀ c ∈ D2.flatten, bin a c ≠ none → lay.owner a ∈ lay.ghosts c) :
    pairsIn bin (exchange1 lay D1 d) (secondaries lay sm bm D2 d) b =
      pairsIn bin (exchange1 lay D1 d) D2.flatten b := by
  unfold secondaries
  split
  · rfl
  · rw [pairsIn_eq, pairsIn_eq, List.flatMap_def, List.flatMap_def]
    congr 1
    apply List.map_congr_left
    intro a ha
    congr 1
    rw [exchange1_eq, List.mem_filter] at ha
    rw [exchange2_eq, List.filter_filter]
    apply List.filter_congr
    intro c hc
    by_cases hb : bin a c = some b
    · have := hghost a ha.1 c hc (by simp [hb])
      rw [beq_iff_eq.mp ha.2] at this
      simp [hb, this]
    · simp [hb]

theorem pairsIn_ranks {A B : Type} (bin : A → B → Option Nat) (lay : Layout A B) (D1 : List (List A))
    (Y : List B) (b P : Nat) (howner : ∀ a ∈ D1.flatten, lay.owner a < P) :
    ((List.range P).flatMap fun d => pairsIn bin (exchange1 lay D1 d) Y b).Perm (pairsIn bin D1.flatten Y b) := by
  classical
  have h := Comm.split_perm D1.flatten lay.owner P howner
  have h2 := h.flatMap_right fun a => (Y.filter fun c => bin a c == some b).map fun c => (a, c)
  rw [List.flatMap_assoc] at h2
  rw [pairsIn_eq]
  refine List.Perm.trans (List.Perm.of_eq ?_) h2
  congr 1
  funext d
  rw [pairsIn_eq, exchange1_eq]
  congr 1

theorem length_flatMap_range {α : Type} (L : Nat → List α) (l : List Nat) :
    (l.flatMap L).length = (l.map fun d => (L d).length).sum := by
  rw [List.length_flatMap]

theorem psum_flatMap {A B : Type} (f : A → B → ℚ) (L : Nat → List (A × B)) (l : List Nat) :
    psum f (l.flatMap L) = (l.map fun d => psum f (L d)).sum := by
  induction l with
  | nil => rfl
  | cons d l ih => rw [List.flatMap_cons, psum_append, ih]; rfl

theorem psum_perm {A B : Type} (f : A → B → ℚ) {P Q : List (A × B)} (h : P.Perm Q) : psum f P = psum f Q :=
  (h.map _).sum_eq

/-- The pair sum as a double sum over the catalogs. -/
theorem psum_pairsIn {A B : Type} (f : A → B → ℚ) (bin : A → B → Option Nat) (X : List A) (Y : List B) (b : Nat) :
    psum f (pairsIn bin X Y b) =
      (X.map fun a => (Y.map fun c => if bin a c = some b then f a c else 0).sum).sum := by
  rw [pairsIn_eq]
  induction X with
  | nil => rfl
  | cons a X ih =>
    rw [List.flatMap_cons, psum_append, ih, List.map_cons, List.sum_cons]
    congr 1
    clear ih
    induction Y with
    | nil => rfl
    | cons c Y ihY =>
      by_cases h : bin a c = some b
      · simp only [List.filter_cons, h, beq_self_eq_true, if_true, List.map_cons, List.sum_cons, ← ihY]
        simp [psum]
      · simp only [List.filter_cons, h, beq_iff_eq, if_false, List.map_cons, List.sum_cons, ← ihY, zero_add]

theorem length_pairsIn {A B : Type} (bin : A → B → Option Nat) (X : List A) (Y : List B) (b : Nat) :
    (pairsIn bin X Y b).length = (X.map fun a => Y.countP fun c => bin a c = some b).sum := by
  rw [pairsIn_eq, List.length_flatMap]
  congr 1
  apply List.map_congr_left
  intro a _
  rw [List.length_map, ← List.countP_eq_length_filter]
  apply List.countP_congr
  intro c _
  simp

end NBK.Pairs
