import Verif.BoxTpcf.ValueProps

set_option linter.unusedSimpArgs false

/-! C140: ranks that keep the contract, and cases. -/
namespace NBK.BoxTpcf
open NBK PcfObj

/-- A reduction of `P + 1` ranks, one after the other. -/
def chain : Nat → Pairs.Tree
  | 0 => .leaf 0
  | n + 1 => .node (chain n) (.leaf (n + 1))

theorem chain_ranks (n : Nat) : (chain n).ranks = List.range (n + 1) := by
  induction n with
  | zero => rfl
  | succ n ih => rw [chain, Pairs.Tree.ranks, ih, Pairs.Tree.ranks, List.range_succ (n := n + 1)]

/-- A grid of domains over the box: particles are wrapped into it, and sent also to all domains within a bit more than the smoothing length. -/
def gridMach (np : Nat × Nat × Nat) : Mach where
  tree := chain (np.1 * np.2.1 * np.2.2 - 1)
  lay := fun box d2 =>
    if 0 < box.x ∧ 0 < box.y ∧ 0 < box.z then
      ⟨fun a => (Pairs.gridLayout box np (d2 + 1)).owner (wrapPos true box a), fun b => (Pairs.gridLayout box np (d2 + 1)).ghosts (wrapPos true box b)⟩
    else ⟨fun _ => 0, fun _ => [0]⟩

/-- C140: the ranks of such a grid keep the contract. -/
theorem grid_good (np : Nat × Nat × Nat) (hx : 0 < np.1) (hy : 0 < np.2.1) (hz : 0 < np.2.2) : (gridMach np).Good (np.1 * np.2.1 * np.2.2) := by
  have hp : 0 < np.1 * np.2.1 * np.2.2 := Nat.mul_pos (Nat.mul_pos hx hy) hz
  refine ⟨?_, ?_, ?_⟩
  · unfold gridMach
    simp only
    rw [chain_ranks, Nat.sub_add_cancel hp]
  · intro box d2 a
    unfold gridMach
    simp only
    split
    · rename_i hb
      have hw := fun L x hL => Pairs.wrap_range L x hL
      unfold wrapPos
      simp only [if_true]
      by_cases hd : 0 ≤ d2 + 1
      · exact (Pairs.gridLayout_complete box np (d2 + 1) hd hx hy hz ⟨_, _, _⟩ a (hw _ _ hb.1) (hw _ _ hb.2.1) (hw _ _ hb.2.2)).1
      · exact (Pairs.gridLayout_complete box np 0 (le_refl _) hx hy hz ⟨_, _, _⟩ a (hw _ _ hb.1) (hw _ _ hb.2.1) (hw _ _ hb.2.2)).1
    · exact hp
  · intro box d2 a b hn
    unfold gridMach
    simp only
    split
    · rename_i hb
      have hw := fun L x hL => Pairs.wrap_range L x hL
      obtain ⟨i, j, k, h⟩ := hn
      have h0 : 0 ≤ d2 := le_trans (by positivity) h
      have hsep : Pairs.sep2 box (wrapPos true box a) (wrapPos true box b) ≤ (d2 + 1) ^ 2 := by
        have lx := (wrap_least box.x a.x b.x hb.1).2 i
        have ly := (wrap_least box.y a.y b.y hb.2.1).2 j
        have lz := (wrap_least box.z a.z b.z hb.2.2).2 k
        unfold Pairs.sep2 wrapPos
        simp only [if_true]
        nlinarith
      unfold wrapPos at hsep ⊢
      simp only [if_true] at hsep ⊢
      exact (Pairs.gridLayout_complete box np (d2 + 1) (by linarith) hx hy hz ⟨_, _, _⟩ ⟨_, _, _⟩ (hw _ _ hb.1) (hw _ _ hb.2.1) (hw _ _ hb.2.2)).2 hsep
    · simp

/-- A particle. -/
def at' (x y z w : ℚ) : Part := ⟨⟨x, y, z⟩, w⟩

/-- Three particles in a box of side 10, on one rank. -/
def one : Cat := ⟨[[at' 1 1 1 1, at' 9 1 1 2, at' 5 5 1 1]], some ⟨10, 10, 10⟩⟩

/-- The same particles on two ranks, one of them an image in the next box. -/
def two : Cat := ⟨[[at' 5 5 1 1], [at' (-1) 1 1 2, at' 1 1 1 1]], some ⟨10, 10, 10⟩⟩

/-- With another particle of weight zero. -/
def more : Cat := ⟨[[at' 5 5 1 1], [at' (-1) 1 1 2, at' 1 1 1 1, at' 5 5 8 0]], some ⟨10, 10, 10⟩⟩

def args1 : Args := { kind := .sim, bins := ⟨"1d", [1, 3, 5], none, none⟩, data1 := 0 }

/-- The values of the correlation function. -/
def corr (x : Except Err Tpcf) : Option (List Binned.Val) :=
  match x with
  | .ok o => some (columnOf o.corr "corr")
  | .error _ => none

/-- On one rank and on two, with an image; a particle of weight zero changes all but -1. -/
example : corr (tpcf env0 id (fun _ _ => gridMach (1, 1, 1)) {} (fun _ => one) args1) = some [.fin (2 / 3 * (2 / 5) / (4 * 26 / 1000) - 1), .fin (-1)] ∧
    corr (tpcf env0 id (fun _ _ => gridMach (2, 1, 1)) {} (fun _ => two) args1) = some [.fin (2 / 3 * (2 / 5) / (4 * 26 / 1000) - 1), .fin (-1)] ∧
    corr (tpcf env0 id (fun _ _ => gridMach (1, 2, 1)) {} (fun _ => more) args1) = some [.fin (3 / 4 * (2 / 5) / (4 * 26 / 1000) - 1), .fin (-1)] := by
  decide +kernel

/-- The hypotheses of `auto_value`, `auto_bound` and `zero_weight_counts`. -/
theorem cube_two (c : Cat) (h : c.box = some ⟨10, 10, 10⟩) : Cube (fun _ => c) {} args1 10 2 :=
  ⟨rfl, rfl, rfl, rfl, rfl, rfl, by decide, by decide +kernel, by decide +kernel, by decide, rfl, by norm_num, h, fun _ _ => h⟩

example : ∃ v v', v' ≠ v ∧
    (∃ o, tpcf env0 id (fun _ _ => gridMach (2, 1, 1)) {} (fun _ => two) args1 = .ok o ∧ (columnOf o.corr "corr")[0]? = some (.fin v)) ∧
    (∃ o, tpcf env0 id (fun _ _ => gridMach (2, 1, 1)) {} (fun _ => more) args1 = .ok o ∧ (columnOf o.corr "corr")[0]? = some (.fin v')) := by
  have hg : ∀ i j, ((fun _ _ => gridMach (2, 1, 1)) i j : Mach).Good 2 := fun (_ : Nat) (_ : Option Nat) => grid_good (2, 1, 1) (by decide) (by decide) (by decide)
  have c1 := cube_two two rfl
  have c2 := cube_two more rfl
  obtain ⟨o, ho⟩ := c1.made (P := 2) (E := env0) (root := id) (fun _ => rfl) hg
  obtain ⟨o', ho'⟩ := c2.made (P := 2) (E := env0) (root := id) (fun _ => rfl) hg
  have hall : more.all = two.all ++ [at' 5 5 8 0] := rfl
  obtain ⟨D, hD⟩ := dist2_exists 10 (by norm_num)
  obtain ⟨v, v', e1, e2, -, e4⟩ := zero_weight_counts (P := 2) (fun _ => rfl) (fun _ => rfl) hg c1 c2 rfl (by decide +kernel) (by decide +kernel)
    [at' 5 5 8 0] (by simp [at']) hall (by decide +kernel) o o' ho ho' 0 1 3 rfl rfl (by norm_num)
  refine ⟨v, v', e4 (by simp) (by decide +kernel) ?_, ⟨o, ho, e1⟩, ⟨o', ho', e2⟩⟩
  rintro rfl
  have hv : corr (tpcf env0 id (fun _ _ => gridMach (2, 1, 1)) {} (fun _ => two) args1) = some [.fin (2 / 3 * (2 / 5) / (4 * 26 / 1000) - 1), .fin (-1)] := by
    decide +kernel
  rw [ho] at hv
  simp only [corr, Option.some.injEq] at hv
  rw [hv] at e1
  norm_num at e1

/-- The hypotheses of `tpcf_ranks`. -/
example : Same id 1 2 (fun _ => one) (fun _ => ⟨[[at' 5 5 1 1], [at' 9 1 1 2, at' 1 1 1 1]], some ⟨10, 10, 10⟩⟩) := by
  refine ⟨fun _ => rfl, fun _ => rfl, fun _ => rfl, fun _ => ?_, fun _ => rfl⟩
  simp only [Cat.all, one, List.flatten_cons, List.flatten_nil, List.append_nil, List.map_id]
  decide +kernel

/-- A shift by 8 along `x`, as in `tpcf_moved`. -/
example : Same (fun p => ⟨⟨p.pos.x + 8, p.pos.y, p.pos.z⟩, p.w⟩) 1 2 (fun _ => one)
    (fun _ => ⟨[[at' 9 1 1 1], [at' 13 5 1 1, at' 17 1 1 2]], some ⟨10, 10, 10⟩⟩) := by
  refine ⟨fun _ => rfl, fun _ => rfl, fun _ => rfl, fun _ => ?_, fun _ => rfl⟩
  decide +kernel

/-- The hypotheses of `tpcf_images`. -/
example : ∀ i : Nat, (((fun _ => two) i : Cat).all.map (intoBox ⟨10, 10, 10⟩)).Perm (((fun _ => one) i : Cat).all.map (intoBox ⟨10, 10, 10⟩)) := by
  intro _
  show (two.all.map (intoBox ⟨10, 10, 10⟩)).Perm (one.all.map (intoBox ⟨10, 10, 10⟩))
  decide +kernel

/-- A second catalog. -/
def other : Cat := ⟨[[at' 2 1 1 1, at' 2 2 8 3]], some ⟨10, 10, 10⟩⟩
/-- Randoms. -/
def rnd1 : Cat := ⟨[[at' 2 1 2 1, at' 2 3 8 1, at' 4 3 8 2]], some ⟨10, 10, 10⟩⟩
def rnd2 : Cat := ⟨[[at' 3 1 2 1, at' 1 3 8 2, at' 4 5 1 2]], some ⟨10, 10, 10⟩⟩
def cats (i : Nat) : Cat := [one, other, rnd1, rnd2].getD i ⟨[[]], some ⟨10, 10, 10⟩⟩

def args2 : Args := { kind := .sim, bins := ⟨"2d", [1, 3, 5], some 2, none⟩, data1 := 0, data2 := some 1 }
def args3 : Args := { args2 with randoms1 := some 2, randoms2 := some 3 }
def proj3 : Args := { args3 with bins := ⟨"projected", [1, 3, 5], none, some 2⟩ }

/-- The counts of an object. -/
def counts (x : Except Err Tpcf) : Option (List (List Binned.Val)) :=
  match x with
  | .ok o => some ([some o.D1D2, o.D1R2, o.D2R1, o.R1R2].map fun c => (c.map fun c => columnOf c "wnpairs").getD [])
  | .error _ => none

/-- Exchanged catalogs, as in `natural_swapped` and `ls_swapped`. -/
example : corr (tpcf env0 id (fun _ _ => gridMach (1, 1, 1)) {} cats { args2 with data1 := 1, data2 := some 0 }) =
      corr (tpcf env0 id (fun _ _ => gridMach (1, 1, 1)) {} cats args2) ∧
    corr (tpcf env0 id (fun _ _ => gridMach (1, 1, 1)) {} cats args2) = some [.fin (21 / 104), .fin (-1), .fin (-71 / 196), .fin (733 / 392)] := by decide +kernel

example : corr (tpcf env0 id (fun _ _ => gridMach (1, 1, 1)) {} cats args3) = some [.fin (-10 / 3), .nan, .fin (11 / 12), .fin (35 / 44)] ∧
    corr (tpcf env0 id (fun _ _ => gridMach (1, 1, 1)) {} cats { args3 with data1 := 1, data2 := some 0, randoms1 := some 3, randoms2 := some 2 }) =
      some [.fin (-10 / 3), .nan, .fin (11 / 12), .fin (35 / 44)] ∧
    (counts (tpcf env0 id (fun _ _ => gridMach (1, 1, 1)) {} cats args3)).map (fun l => l[1]?) = some (some [.fin 3, .fin 0, .fin 3, .fin 6]) ∧
    (counts (tpcf env0 id (fun _ _ => gridMach (1, 1, 1)) {} cats args3)).map (fun l => l[2]?) = some (some [.fin 9, .fin 0, .fin 0, .fin 6]) := by
  decide +kernel

/-- The mode 'projected'. -/
example : corr (tpcf env0 id (fun _ _ => gridMach (1, 1, 1)) {} cats proj3) = some [.fin (-3), .nan, .fin (13 / 8), .fin (-1 / 2)] := by decide +kernel

/-- Boxes that are not cubes, too large separations, lines of sight given as floats. -/
example : failed (tpcf env0 id (fun _ _ => gridMach (1, 1, 1)) {} (fun _ => { one with box := some ⟨10, 20, 10⟩ }) args1) = some .other ∧
    failed (tpcf env0 id (fun _ _ => gridMach (1, 1, 1)) {} (fun _ => one) { args1 with bins := ⟨"1d", [1, 6], none, none⟩ }) = some .valueError ∧
    failed (tpcf env0 id (fun _ _ => gridMach (1, 1, 1)) ⟨.float (some 2), false⟩ (fun _ => one) args1) = some .indexError ∧
    failed (tpcf env0 id (fun _ _ => gridMach (1, 1, 1)) {} (fun _ => { one with box := some ⟨10, 20, 10⟩ })
      { args1 with periodic := false, randoms1 := some 2 }) = none := by decide +kernel

end NBK.BoxTpcf
