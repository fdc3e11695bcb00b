import Verif.SaveObj.ProgProps

/-!
# Concrete cases of C139
-/
set_option linter.unusedSimpArgs false
namespace NBK.SaveObj
open NBK.Attrs (Codec Dict Val Stored)
variable {V : Type}

/-- The last row of the last column first, one by one. -/
def rowwise (P : Nat) (l : List (Name × Col V)) : List ((Name × Col V) × Chunk) :=
  l.reverse.flatMap fun p => (List.range P).reverse.flatMap fun r => (List.range (p.2.expr.len r)).reverse.map fun i => (p, ⟨r, i, 1⟩)

/-- The rows of each rank at once. -/
def rankwise (P : Nat) (l : List (Name × Col V)) : List ((Name × Col V) × Chunk) :=
  l.flatMap fun p => (List.range P).map fun r => (p, ⟨r, 0, p.2.expr.len r⟩)

theorem rowwise_covers (P : Nat) (l : List (Name × Col V)) : Covers P l (rowwise P l) := by
  constructor
  · intro x hx
    simp only [rowwise, List.mem_flatMap, List.mem_reverse, List.mem_map, List.mem_range] at hx
    obtain ⟨p, hp, r, hr, i, hi, rfl⟩ := hx
    exact ⟨hp, hr, by simp only; omega⟩
  · intro p hp r i hr hi
    refine ⟨⟨r, i, 1⟩, ?_, rfl, Nat.le_refl _, by simp only; omega⟩
    simp only [rowwise, List.mem_flatMap, List.mem_reverse, List.mem_map, List.mem_range]
    exact ⟨p, hp, r, hr, i, hi, rfl⟩

theorem rankwise_covers (P : Nat) (l : List (Name × Col V)) : Covers P l (rankwise P l) := by
  constructor
  · intro x hx
    simp only [rankwise, List.mem_flatMap, List.mem_map, List.mem_range] at hx
    obtain ⟨p, hp, r, hr, rfl⟩ := hx
    exact ⟨hp, hr, by simp⟩
  · intro p hp r i hr hi
    refine ⟨⟨r, 0, p.2.expr.len r⟩, ?_, rfl, Nat.zero_le _, by simpa using hi⟩
    simp only [rankwise, List.mem_flatMap, List.mem_map, List.mem_range]
    exact ⟨p, hp, r, hr, rfl⟩

namespace Case

def codec : Codec := ⟨fun _ => [], fun _ => none⟩
def empty : FS Nat := fun _ => none

/-- Two ranks with two rows and one row; a column of rows, one made of it, and a default column. -/
def position : Expr Nat := .mem [[10, 11], [12]]
def cat : Cat Nat := ⟨[2, 1],
  [(["Position"], ⟨position, false, []⟩), (["Double"], ⟨.map (2 * ·) position, false, [("unit", .text ['m'])]⟩), (["Weight"], ⟨.mem [[1, 1], [1]], true, []⟩)],
  [("note", .text ['h', 'i'])]⟩

def defaults : Defaults Nat := [(["Weight"], fun _ => 1), (["Index"], fun i => i)]

def saved : FS Nat := (save codec 0 empty cat "a" {} (rowwise 2)).1
def loaded (P : Nat) (fs : FS Nat) (a : LoadArgs) : Option (Cat Nat) := (load codec defaults P fs "a" a).toOption

-- the file, and the catalog on three ranks
example : (save codec 0 empty cat "a" {} (rowwise 2)).2 = none ∧ (saved.block "a" ["Double"]).map Block.data = some [20, 22, 24] ∧ (saved.block "a" ["Double"]).map Block.size = some 3 ∧
    (saved.block "a" ["Weight"]).isNone := by decide +kernel
example : (loaded 3 saved {}).map (·.sizes) = some [1, 1, 1] ∧ (loaded 2 saved {}).map (·.sizes) = some [1, 2] ∧
    ((loaded 2 saved {}).bind fun x => rows saved x ["Position"]) = some [10, 11, 12] ∧ ((loaded 2 saved {}).bind fun x => rows saved x ["Double"]) = some [20, 22, 24] ∧
    ((loaded 2 saved {}).bind fun x => rows saved x ["Index"]) = some [0, 1, 2] := by decide +kernel

theorem ok_empty : empty.Ok := fun _ _ h => by cases h

theorem sized : cat.Sized := by
  intro p hp r
  simp only [cat, List.mem_cons, List.not_mem_nil, or_false] at hp
  rcases hp with rfl | rfl | rfl <;> (rcases r with _ | _ | r <;> simp [position, Expr.len, cat])

-- the hypotheses of round_trip_partial
example : ∃ fs', save codec 0 empty cat "a" {} (rowwise 2) = (fs', none) ∧ ∀ (D : Defaults Nat) (P : Nat) (user : Dict Val), 0 < P → (Attrs.keys user).Nodup →
    ∃ cat', load codec D P fs' "a" { attrs := user } = .ok cat' ∧ rows fs' cat' ["Double"] = some [20, 22, 24] := by
  obtain ⟨fs', h1, h2⟩ := round_trip_partial codec 0 empty ok_empty cat sized "a" rfl {} rfl rfl (by simp) (by decide) (by decide)
    (by
      intro n hn
      have hn' : n = ["Position"] ∨ n = ["Double"] ∨ n = ["Weight"] := by simpa [asked, cat] using hn
      rcases hn' with rfl | rfl | rfl
      · exact ⟨_, rfl, by decide⟩
      · exact ⟨_, rfl, by decide⟩
      · exact ⟨_, rfl, by decide⟩)
    ⟨["Position"], ⟨position, false, []⟩, by decide, rfl, rfl⟩
    (by
      rintro n x ⟨hn, hl, hd⟩
      have hn' : n = ["Position"] ∨ n = ["Double"] ∨ n = ["Weight"] := by simpa [asked, cat] using hn
      rcases hn' with rfl | rfl | rfl
      · injection (show some (⟨position, false, []⟩ : Col Nat) = some x from hl) with hl
        subst hl
        exact ⟨(readable_iff _ _ _).mpr ⟨[10, 11, 12], by decide⟩, fun y hy => by cases hy⟩
      · injection (show some (⟨.map (2 * ·) position, false, [("unit", .text ['m'])]⟩ : Col Nat) = some x from hl) with hl
        subst hl
        exact ⟨(readable_iff _ _ _).mpr ⟨[20, 22, 24], by decide⟩, fun y hy => by cases hy⟩
      · injection (show some (⟨.mem [[1, 1], [1]], true, []⟩ : Col Nat) = some x from hl) with hl
        subst hl
        cases hd)
    (by
      intro p hp
      simp only [cat, List.mem_singleton] at hp
      subst hp
      rfl)
    (by decide) (rowwise 2) (fun l _ => rowwise_covers 2 l)
  refine ⟨fs', h1, fun D P user hP hu => ?_⟩
  obtain ⟨cat', g1, _, g2, _⟩ := h2 D P user hP hu
  refine ⟨cat', g1, ?_⟩
  rw [(g2 ["Double"] ⟨.map (2 * ·) position, false, [("unit", .text ['m'])]⟩ ⟨by decide, rfl, rfl⟩).1]
  decide

/-- Saved again where it came from, or beside. -/
def again (fs : FS Nat) (P : Nat) (a : Args) : Option (FS Nat × Option Err) := (loaded P fs {}).map fun x => save codec 0 fs x "a" a (rankwise P)

example : (again saved 2 {}).map (·.2) = some (some .lost) ∧ ((again saved 2 {}).bind fun r => (loaded 2 r.1 {}).map fun x => (rows r.1 x ["Position"]).isNone) = some true ∧
    ((again saved 2 {}).bind fun r => (r.1.block "a" ["Position"]).map Block.data) = some [] := by decide +kernel
example : (again saved 2 { dataset := ["copy"] }).map (·.2) = some none ∧
    ((again saved 2 { dataset := ["copy"] }).bind fun r => (loaded 3 r.1 { dataset := ["copy"] }).bind fun x => rows r.1 x ["Double"]) = some [20, 22, 24] := by decide +kernel

-- an attribute that cannot be stored: the columns of the file are gone
def bad : Cat Nat := { cat with attrs := [("x", .obj (.arr "S1" [1] [.bytes "q"]))] }
example : (save codec 0 saved bad "a" {} (rowwise 2)).2 = some .valueError ∧ ((save codec 0 saved bad "a" {} (rowwise 2)).1.block "a" ["Position"]).map Block.data = some [] := by decide +kernel

-- a shorter catalog with one column less, into the same file
def short : Cat Nat := ⟨[1, 1], [(["Position"], ⟨.mem [[7], [8]], false, []⟩)], []⟩
def mixed : FS Nat := (save codec 0 saved short "a" {} (rowwise 2)).1
example : (save codec 0 saved short "a" {} (rowwise 2)).2 = none ∧ (load codec defaults 2 mixed "a" {} matches .error .inconsistent) ∧
    ((loaded 1 mixed { exclude := some [["Header"], ["Double"]] }).bind fun x => rows mixed x ["Position"]) = some [7, 8] := by decide +kernel

-- another catalog of the same length: the old column stays
def other : Cat Nat := ⟨[3], [(["Position"], ⟨.mem [[7, 8, 9]], false, []⟩)], []⟩
def stale : FS Nat := (save codec 0 saved other "a" {} (rowwise 1)).1
example : ((loaded 2 stale {}).bind fun x => rows stale x ["Position"]) = some [7, 8, 9] ∧ ((loaded 2 stale {}).bind fun x => rows stale x ["Double"]) = some [20, 22, 24] := by decide +kernel

-- another header
def headed : FS Nat := (save codec 0 empty cat "a" { header := some ["Meta"] } (rowwise 2)).1
example : (load codec defaults 2 headed "a" {} matches .error .inconsistent) ∧
    ((loaded 2 headed { header := some [["Meta"]] }).bind fun x => rows headed x ["Position"]) = some [10, 11, 12] := by decide +kernel

-- a column with a name of headers
def named : Cat Nat := { cat with cols := (["header"], ⟨position, false, []⟩) :: cat.cols }
def hiddenFs : FS Nat := (save codec 0 empty named "a" {} (rowwise 2)).1
example : (hiddenFs.block "a" ["header"]).map Block.data = some [10, 11, 12] ∧ ((loaded 2 hiddenFs {}).map fun x => (x.cols.lookup ["header"]).isNone) = some true := by decide +kernel

-- names of blocks for the columns, and a default column among them
example : (save codec 0 empty cat "a" { columns := some [["Position"], ["Weight"]], datasets := some [["p"], ["w"]] } (rowwise 2)).2 = some .valueError ∧
    ((save codec 0 empty cat "a" { columns := some [["Position"], ["Weight"]], datasets := some [["p"]] } (rowwise 2)).1.block "a" ["p"]).map Block.data = some [10, 11, 12] ∧
    (save codec 0 empty cat "a" { columns := some [["None"]] } (rowwise 2)).2 = some .keyError := by decide +kernel

-- written later, after the file that is read was written again
def reader : Cat Nat := ⟨[3], [(["Copy"], ⟨.disk "a" ["Position"] [0] [3], false, []⟩)], []⟩
def promised : FS Nat := (begin codec 1 saved reader "b" {}).1
def rewritten : FS Nat := (save codec 0 promised other "a" {} (rowwise 1)).1
example : ((writeAll 0 "b" rewritten (rowwise 1 (reader.cols))).1.block "b" ["Copy"]).map Block.data = some [7, 8, 9] ∧
    ((writeAll 0 "b" promised (rowwise 1 (reader.cols))).1.block "b" ["Copy"]).map Block.data = some [10, 11, 12] := by decide +kernel

-- a program: saved, loaded, changed in memory, saved elsewhere
def program : List (Op Nat) :=
  [.save 0 "a" {} (rowwise 2), .load 3 "a" {}, .assign 1 ["Position"] ["Position"] (· + 1), .save 1 "b" {} (rowwise 3)]
example : (((run codec 0 defaults (empty, [cat]) program).2[1]?).bind fun x => rows (run codec 0 defaults (empty, [cat]) program).1 x ["Double"]) = some [20, 22, 24] ∧
    ((run codec 0 defaults (empty, [cat]) program).1.block "b" ["Position"]).map Block.data = some [11, 12, 13] ∧
    ((run codec 0 defaults (empty, [cat]) program).1.block "a" ["Position"]).map Block.data = some [10, 11, 12] := by decide +kernel

end Case
end NBK.SaveObj
