import Verif.CsvObj.ReadProps

set_option linter.unusedSimpArgs false

/-!
# C114: what is not checked, with witnesses
-/
namespace NBK.CsvObj
open NBK.FileIO
variable {β : Type} [DecidableEq β]

/-- C114: two files with the same first rows are both accepted or both not, and with the same types. -/
theorem open_prefix (nl : β) (split : Sep → List β → List Cell) (b₁ b₂ : List β) (names : List String) (g : Cfg)
    (h : firstRows nl split b₁ g = firstRows nl split b₂ g) (o : File β) (ho : openCsv nl split b₁ names g = .ok o) :
    ∃ o', openCsv nl split b₂ names g = .ok o' ∧ o'.dtype = o.dtype := by
  obtain ⟨h1, h2, h3, h4, h5, h6⟩ := (open_iff nl split b₁ names g).mp ⟨o, ho⟩
  have h2' : GoodStart nl split b₂ names g := ⟨h2.engine, h2.nrows, h ▸ h2.first, h2.nodup, h2.sub, h ▸ h2.numbers⟩
  obtain ⟨o', ho'⟩ := (open_iff nl split b₂ names g).mpr ⟨h1, h2', h3, h4, h5, h6⟩
  refine ⟨o', ho', ?_⟩
  obtain ⟨-, -, -, -, -, -, -, -, ts, hts, hd⟩ := open_fields nl split b₁ names g o ho
  obtain ⟨-, -, -, -, -, -, -, -, ts', hts', hd'⟩ := open_fields nl split b₂ names g o' ho'
  rw [← h, hts] at hts'
  rw [hd, hd', Except.ok.inj hts']

theorem cast_misfit (d : DT) (c : Cell) (h : ¬ Fits d c) : castCell d c = .error .valueError := by
  cases d with
  | i8 =>
    cases c with
    | int n => exact absurd ⟨n, rfl⟩ h
    | _ => rfl
  | f8 =>
    cases c with
    | text s => rfl
    | _ => exact absurd (fun s hs => by cases hs) h
  | obj => exact absurd trivial h

theorem mapM_fails {γ δ ε : Type} (f : γ → Except ε δ) (e : ε) (l : List γ) (hf : ∀ x ∈ l, ∀ e', f x = .error e' → e' = e) (x : γ) (hx : x ∈ l)
    (hfx : f x = .error e) : l.mapM f = .error e := by
  induction l with
  | nil => cases hx
  | cons y l ih =>
    rw [List.mapM_cons]
    cases hy : f y with
    | error e' => rw [hf y (by simp) e' hy]; rfl
    | ok v =>
      rcases List.mem_cons.mp hx with rfl | hx
      · rw [hy] at hfx; cases hfx
      · rw [show (Except.ok v >>= fun a => List.mapM f l >>= fun as => pure (a :: as)) = (List.mapM f l >>= fun as => pure (v :: as)) from rfl,
          ih (fun z hz => hf z (by simp [hz])) hx]
        rfl

theorem cast_error (d : DT) (c : Cell) (e : Err) (h : castCell d c = .error e) : e = .valueError := by
  by_cases hf : Fits d c
  · rw [cast_fits d c hf] at h; cases h
  · rw [cast_misfit d c hf] at h; cases h; rfl

/-- C114: one cell of a block that does not fit the type of its column makes every read that touches the block fail, whatever rows and columns
are asked for. -/
theorem misfit_fails (nl : β) (split : Sep → List β → List Cell) (o : File β) (p : Csv.Part β) (he : o.engine = .c) (d : String × DT) (hd : d ∈ o.dtype)
    (l : List β) (hl : l ∈ Csv.parse nl o.skipBlank p) (hm : ¬ Fits d.2 (cellAt o.names (split o.sep l) d.1)) (columns : List String) (a b s : Int) :
    readPart nl split o columns p a b s = .error .valueError := by
  have : frame nl split o p = .error .valueError := by
    unfold frame
    dsimp only
    split
    · rfl
    · have hconv : ∀ (d : String × DT) (e : Err), (convert o.engine d.2 (colCells o.names ((Csv.parse nl o.skipBlank p).map (split o.sep)) d.1)).map
          (fun l => (d.1, l)) = .error e → e = .valueError := by
        intro d e hx
        cases hcv : convert o.engine d.2 (colCells o.names ((Csv.parse nl o.skipBlank p).map (split o.sep)) d.1) with
        | ok _ => rw [hcv] at hx; cases hx
        | error e' =>
          rw [hcv] at hx
          cases hx
          unfold convert at hcv
          generalize (if o.engine = .c then d.2 else infer _) = t at hcv
          generalize colCells o.names ((Csv.parse nl o.skipBlank p).map (split o.sep)) d.1 = cs at hcv
          induction cs with
          | nil => cases hcv
          | cons c cs ih =>
            rw [List.mapM_cons] at hcv
            cases hc : castCell t c with
            | error e' => rw [hc] at hcv; cases hcv; exact cast_error t c _ hc
            | ok v =>
              rw [hc] at hcv
              cases hr : cs.mapM (castCell t) with
              | error e' => rw [hr] at hcv; cases hcv; exact ih hr
              | ok vs => rw [hr] at hcv; cases hcv
      have hbad : (convert o.engine d.2 (colCells o.names ((Csv.parse nl o.skipBlank p).map (split o.sep)) d.1)).map (fun l => (d.1, l)) =
          .error .valueError := by
        unfold convert
        rw [if_pos he, mapM_fails (castCell d.2) .valueError _ (fun x _ e' => cast_error d.2 x e') (cellAt o.names (split o.sep l) d.1)
          ((colCells_mem _ _ _ _).mpr ⟨_, List.mem_map.mpr ⟨l, hl, rfl⟩, rfl⟩) (cast_misfit _ _ hm)]
        rfl
      rw [mapM_fails _ .valueError _ (fun x _ e' => hconv x e') d hd hbad]
  unfold readPart
  rw [this]

/-! ## Witnesses: the cells themselves are the bytes, `none` is the newline -/

def cells : Sep → List (Option Cell) → List Cell := fun _ l => l.filterMap id

def file (rows : List (List Cell)) : List (Option Cell) := rows.flatMap fun r => r.map some ++ [none]

/-- The types and a column of the file. -/
def look (bytes : List (Option Cell)) (names : List String) (g : Cfg) (c : String) (i : Index) :
    Except Err (List (String × DT) × Int × Except Err (List Item)) :=
  match openCsv none cells bytes names g with
  | .error e => .error e
  | .ok o => .ok (o.dtype, o.size, column none cells o c i)

def good : List (Option Cell) := file [[.int 1, .flt (1 / 2)], [.int 2, .int 3], [.int 4, .flt 5]]

deriving instance DecidableEq for Except

/-- The theorems apply: three rows of two columns in two blocks; the second row and a slice with a step; a column left out; a given type. -/
theorem good_case :
    look good ["x", "y"] { blocksize := 5 } "y" (.int 1) = .ok ([("x", .i8), ("y", .f8)], 3, .ok [.f 3]) ∧
    look good ["x", "y"] { blocksize := 5 } "x" (.slice ⟨some 0, none, some 2⟩) = .ok ([("x", .i8), ("y", .f8)], 3, .ok [.i 1, .i 4]) ∧
    look good ["x", "y"] { usecols := some ["y"] } "y" (.slice ⟨none, none, none⟩) = .ok ([("y", .f8)], 3, .ok [.f (1 / 2), .f 3, .f 5]) ∧
    look good ["x", "y"] { dtype := .str .f8 } "x" (.int 2) = .ok ([("x", .f8), ("y", .f8)], 3, .ok [.f 4]) ∧
    look good ["x"] {} "x" (.int 0) = .error .valueError ∧ look good ["x", "y", "z"] {} "x" (.int 0) = .error .valueError := by
  refine ⟨?_, ?_, ?_, ?_, ?_, ?_⟩ <;> decide +kernel

/-- The conditions of `column_partial` can be met: the same file with `skip_blank_lines=False`. -/
theorem regular_case : ∃ o, openCsv none cells good ["x", "y"] { blocksize := 5, skipBlank := false } = .ok o ∧
    Regular none cells good { blocksize := 5, skipBlank := false } o ∧ o.dtype = [("x", .i8), ("y", .f8)] ∧
    fileRows none cells good { blocksize := 5, skipBlank := false } = [[.int 1, .flt (1 / 2)], [.int 2, .int 3], [.int 4, .flt 5]] := by
  have hb : Csv.blocks none good 5 = [file [[.int 1, .flt (1 / 2)], [.int 2, .int 3]], file [[.int 4, .flt 5]]] := by decide +kernel
  have hf : fileRows none cells good { blocksize := 5, skipBlank := false } = [[.int 1, .flt (1 / 2)], [.int 2, .int 3], [.int 4, .flt 5]] := by
    decide +kernel
  have ho : ∃ o, openCsv none cells good ["x", "y"] { blocksize := 5, skipBlank := false } = .ok o ∧ o.names = ["x", "y"] ∧
      o.dtype = [("x", .i8), ("y", .f8)] := ⟨_, rfl, rfl, by decide +kernel⟩
  obtain ⟨o, h1, h2, h3⟩ := ho
  refine ⟨o, h1, ⟨rfl, ?_, ?_, ?_, ?_⟩, h3, hf⟩
  · rw [hb]
    refine ⟨⟨(fun h => by cases h), Nat.zero_le _⟩, ?_, ⟨(fun h => by cases h), Nat.zero_le _⟩, ?_, trivial⟩
    · rw [if_neg (by simp)]
      right
      decide +kernel
    · rw [if_pos rfl]
      decide +kernel
  · intro n hn
    cases hn
  · right
    rw [hf, h2]
    decide +kernel
  · rw [hf, h2, h3]
    simp [Fits, cellAt, List.idxOf, List.findIdx, List.findIdx.go]

/-- Twelve rows of one column. -/
def twelve (last : Cell) : List (Option Cell) := file ((List.replicate 11 [Cell.int 7]) ++ [[last]])

/-- C114: only the first ten rows are looked at. A float in row twelve makes the column unreadable, even its first row, although a float in row
ten makes it a float column; so does a missing entry. -/
theorem late_rows :
    look (twelve (.flt (1 / 2))) ["x"] {} "x" (.int 0) = .ok ([("x", .i8)], 12, .error .valueError) ∧
    look (twelve .missing) ["x"] {} "x" (.int 0) = .ok ([("x", .i8)], 12, .error .valueError) ∧
    look (twelve (.flt (1 / 2))) ["x"] { nrows := .num 12 } "x" (.int 0) = .ok ([("x", .f8)], 12, .ok [.f 7]) := by
  refine ⟨?_, ?_, ?_⟩ <;> decide +kernel

/-- C114: a type that does not fit the data is accepted when the file is opened, and fails in every read. -/
theorem wrong_type_accepted :
    look good ["x", "y"] { dtype := .dict [("y", .i8)] } "x" (.int 0) = .ok ([("x", .i8), ("y", .i8)], 3, .error .valueError) := by
  decide +kernel

/-- C114: the types are handed to the engine 'c' only. With the engine 'python' a float column that holds whole numbers is read as integers whose bytes
are then taken for floats: the values of `file['x']` are wrong and nothing is reported. -/
theorem python_engine_bits :
    look good ["x", "y"] { engine := .python, dtype := .str .f8 } "x" (.slice ⟨none, none, none⟩) =
      .ok ([("x", .f8), ("y", .f8)], 3, .ok [.bits (.i 1), .bits (.i 2), .bits (.i 4)]) ∧
    look (twelve (.flt (1 / 2))) ["x"] { engine := .python } "x" (.int 11) = .ok ([("x", .i8)], 12, .ok [.bits (.f (1 / 2))]) := by
  refine ⟨?_, ?_⟩ <;> decide +kernel

/-- C114: a row that is too long is an error if it is read in the middle of a block; if a block begins with it, or if `usecols` is given, it is cut
and nothing is reported. -/
theorem long_row :
    look (file (List.replicate 11 [Cell.int 7] ++ [[.int 8, .int 9]])) ["x"] {} "x" (.int 11) = .ok ([("x", .i8)], 12, .error .valueError) ∧
    look (file (List.replicate 11 [Cell.int 7] ++ [[.int 8, .int 9]])) ["x"] { blocksize := 21 } "x" (.int 11) = .ok ([("x", .i8)], 12, .ok [.i 8]) ∧
    look (file (List.replicate 11 [Cell.int 7] ++ [[.int 8, .int 9]])) ["x"] { usecols := some ["x"] } "x" (.int 11) =
      .ok ([("x", .i8)], 12, .ok [.i 8]) := by
  refine ⟨?_, ?_, ?_⟩ <;> decide +kernel

/-- C114: `index_col=0` is accepted and ignored, `index_col=1` is rejected; `skiprows=None` and a `numpy.dtype` are TypeErrors. -/
theorem keywords_case :
    look good ["x", "y"] { indexCol := some (.int 0) } "x" (.int 0) = .ok ([("x", .i8), ("y", .f8)], 3, .ok [.i 1]) ∧
    look good ["x", "y"] { indexCol := some (.int 1) } "x" (.int 0) = .error .valueError ∧
    look good ["x", "y"] { skiprows := .none } "x" (.int 0) = .error .typeError ∧
    look good ["x", "y"] { dtype := .other } "x" (.int 0) = .error .typeError ∧
    look good ["x", "y"] { header := some (some 0) } "x" (.int 0) = .error .valueError ∧
    look good ["x", "y"] { header := some none } "x" (.int 0) = .ok ([("x", .i8), ("y", .f8)], 3, .ok [.i 1]) ∧
    look good ["x", "y"] { skiprows := .num 1 } "x" (.int 0) = .ok ([("x", .i8), ("y", .f8)], 2, .ok [.i 2]) := by
  refine ⟨?_, ?_, ?_, ?_, ?_, ?_, ?_⟩ <;> decide +kernel

end NBK.CsvObj
