import Verif.BoxTpcf.UnitProps
import Verif.BoxTpcf.CaseProps

set_option linter.unusedSimpArgs false

/-! C140: cases of units and of weights that are zero. -/
namespace NBK.BoxTpcf
open NBK PcfObj

/-- `one` in units three times smaller. -/
def three : Cat := ⟨[[at' 3 3 3 1, at' 27 3 3 2, at' 15 15 3 1]], some ⟨30, 30, 30⟩⟩

def args30 : Args := { args1 with bins := ⟨"1d", [3, 9, 15], none, none⟩ }

/-- The hypotheses of `auto_unit`. -/
example : Cube (fun _ => three) ⟨.str ['x'], false⟩ args30 (3 * 10) 0 ∧ three.all = one.all.map (stretch 3) :=
  ⟨⟨rfl, rfl, rfl, rfl, rfl, rfl, by decide, by decide +kernel, by decide +kernel, by decide, rfl, by norm_num, by decide +kernel, fun _ h => by cases h⟩,
    by decide +kernel⟩

example : corr (tpcf env0 id (fun _ _ => gridMach (1, 1, 1)) ⟨.str ['x'], false⟩ (fun _ => three) args30) =
    corr (tpcf env0 id (fun _ _ => gridMach (1, 1, 1)) {} (fun _ => one) args1) := by decide +kernel

/-- `cats` with particles of weight zero among the data. -/
def padded (i : Nat) : Cat :=
  [⟨[[at' 1 1 1 1, at' 9 1 1 2, at' 5 5 1 1, at' 2 1 2 0]], some ⟨10, 10, 10⟩⟩, ⟨[[at' 2 1 1 1, at' 2 2 8 3, at' 7 7 7 0]], some ⟨10, 10, 10⟩⟩, rnd1, rnd2].getD i
    ⟨[[]], some ⟨10, 10, 10⟩⟩

/-- The hypotheses of `ls_zero_weight`. -/
example : ∀ i, Padded (cats i) (padded i)
  | 0 => ⟨rfl, [at' 2 1 2 0], by simp [at'], rfl⟩
  | 1 => ⟨rfl, [at' 7 7 7 0], by simp [at'], rfl⟩
  | 2 => Padded.refl _
  | 3 => Padded.refl _
  | _ + 4 => Padded.refl _

example : corr (tpcf env0 id (fun _ _ => gridMach (1, 1, 1)) {} padded args3) = some [.fin (-10 / 3), .nan, .fin (11 / 12), .fin (35 / 44)] ∧
    (counts (tpcf env0 id (fun _ _ => gridMach (1, 1, 1)) {} padded args3)).map (fun l => l[1]?) = some (some [.fin 3, .fin 0, .fin 3, .fin 6]) := by
  decide +kernel

end NBK.BoxTpcf
