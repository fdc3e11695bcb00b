import Verif.Plain.TwoProps
import Verif.Plain.LoopProps
import Mathlib.Data.Nat.Digits.Defs
import Mathlib.Data.Nat.Digits.Lemmas

/-!
# C115: concrete files

Numbers are natural numbers in decimal notation; negative ones are read by `int` only.
-/
set_option linter.unusedSimpArgs false
namespace NBK.Plain

deriving instance DecidableEq for Except

/-- The values of metadata in the examples; `called` is the result of calling some other function. -/
inductive Val where
  | int (n : Int)
  | bool (b : Bool)
  | str (s : Tok)
  | called (f arg : Tok)
  deriving DecidableEq, Repr

def digit (c : Char) : Option Nat := if 48 ≤ c.toNat ∧ c.toNat < 58 then some (c.toNat - 48) else none

def nat (t : Tok) : Option Nat := if t = [] then none else (t.mapM digit).map fun ds => Nat.ofDigits 10 ds.reverse

def int (t : Tok) : Option Int :=
  match t with
  | '-' :: r => (nat r).map fun n => -(n : Int)
  | r => (nat r).map fun n => (n : Int)

def chars (s : String) : Tok := s.toList

def builtin (t : Tok) : Option (Tok → Option Val) :=
  if t = ['i', 'n', 't'] then some fun s => (int s).map .int
  else if t = ['b', 'o', 'o', 'l'] then some fun s => some (.bool (!s.isEmpty))
  else if t = ['s', 't', 'r'] then some fun s => some (.str s)
  else if t = ['e', 'v', 'a', 'l'] then some fun s => some (.called t s)
  else none

def numpy (t : Tok) : Option (Tok → Option Val) :=
  if t = ['i', 'n', 't', '6', '4'] then some fun s => (int s).map .int else none

def prims : Prims Nat Val := ⟨nat, int, builtin, numpy, fun v => match v with | .str s => some (s.map fun c => [c]) | _ => none⟩

def toChar (d : Nat) : Char := Char.ofNat (48 + d)

def showNat (n : Nat) : Tok := if n = 0 then ['0'] else (Nat.digits 10 n).reverse.map toChar

theorem toChar_facts (d : Nat) (h : d < 10) : digit (toChar d) = some d ∧ (toChar d).isWhitespace = false ∧ toChar d ≠ '#' ∧ toChar d ≠ 'e' ∧
    toChar d ≠ '-' := by
  have : d = 0 ∨ d = 1 ∨ d = 2 ∨ d = 3 ∨ d = 4 ∨ d = 5 ∨ d = 6 ∨ d = 7 ∨ d = 8 ∨ d = 9 := by omega
  rcases this with rfl | rfl | rfl | rfl | rfl | rfl | rfl | rfl | rfl | rfl <;>
    refine ⟨?_, ?_, ?_, ?_, ?_⟩ <;> decide +kernel

theorem mapM_digit (l : List Nat) (h : ∀ d ∈ l, d < 10) : (l.map toChar).mapM digit = some l := by
  induction l with
  | nil => rfl
  | cons d l ih =>
    rw [List.map_cons, List.mapM_cons, (toChar_facts d (h d (by simp))).1, ih (fun x hx => h x (by simp [hx]))]
    rfl

theorem showNat_eq (n : Nat) : ∃ l, l ≠ [] ∧ (∀ d ∈ l, d < 10) ∧ showNat n = l.map toChar ∧ Nat.ofDigits 10 l.reverse = n := by
  by_cases h : n = 0
  · subst h
    exact ⟨[0], by simp, by simp, by decide +kernel, by simp⟩
  · refine ⟨(Nat.digits 10 n).reverse, ?_, ?_, ?_, ?_⟩
    · simpa [Nat.digits_ne_nil_iff_ne_zero] using h
    · intro d hd
      exact Nat.digits_lt_base (by omega) (by simpa using hd)
    · rw [showNat, if_neg h]
    · rw [List.reverse_reverse, Nat.ofDigits_digits]

theorem nat_showNat (n : Nat) : nat (showNat n) = some n := by
  obtain ⟨l, h0, h1, h2, h3⟩ := showNat_eq n
  rw [h2, nat, if_neg (by simpa using h0), mapM_digit l h1]
  simp [h3]

theorem isTok_showNat (n : Nat) : IsTok (showNat n) := by
  obtain ⟨l, h0, h1, h2, _⟩ := showNat_eq n
  rw [h2]
  refine ⟨by simpa using h0, fun c hc => ?_⟩
  obtain ⟨d, hd, rfl⟩ := List.mem_map.1 hc
  exact (toChar_facts d (h1 d hd)).2.1

theorem mem_showNat (n : Nat) (c : Char) (hc : c ∈ showNat n) : c ≠ '#' ∧ c ≠ 'e' ∧ c ≠ '-' := by
  obtain ⟨l, h0, h1, h2, _⟩ := showNat_eq n
  rw [h2] at hc
  obtain ⟨d, hd, rfl⟩ := List.mem_map.1 hc
  exact (toChar_facts d (h1 d hd)).2.2

theorem int_showNat (n : Nat) : int (showNat n) = some (n : Int) := by
  have h := nat_showNat n
  have hm := mem_showNat n
  cases hs : showNat n with
  | nil => exact absurd hs (isTok_showNat n).1
  | cons c cs =>
    rw [hs] at h
    have hc : c ≠ '-' := (hm c (by simp [hs])).2.2
    rw [int]
    · simp [h]
    · rintro r h'
      cases h'
      exact hc rfl

/-- Decimal notation is a way to write numbers. -/
def printer : Printer prims where
  num := showNat
  cnt := showNat
  num_tok := isTok_showNat
  num_hash := by
    intro x h
    exact (mem_showNat x '#' (List.mem_of_head? h)).1 rfl
  num_read := nat_showNat
  cnt_tok := isTok_showNat
  cnt_e := by
    intro n h
    exact (mem_showNat n 'e' h).2.1 rfl
  cnt_read := int_showNat

/-- Two bins with a real and a complex column, three edges, and two lines of metadata. -/
def cols1 : Dict (Col Nat) := [(['k'], .real [10, 20]), (['p'], .cplx [1, 2] [3, 4])]
def info1 : List (Info Val) := [⟨['N'], ['7'], ['i', 'n', 't'], .int 7⟩, ⟨['m', 'o'], ['z'], ['s', 't', 'r'], .str ['z']⟩]
def file1 : List Line := write1D printer cols1 2 [0, 15, 30] info1

/-- The text of the file, and that it is read. -/
theorem case_1d :
    file1 = ["# k p.real p.imag\n".toList, "10 1 3\n".toList, "20 2 4\n".toList, "# edges 3\n".toList, "# 0\n".toList, "# 15\n".toList,
      "# 30\n".toList, "# metadata 2\n".toList, "# N 7 int\n".toList, "# mo z str\n".toList] ∧
    fromPlaintext prims 5 true [['k']] file1 [(['N'], .int 8)] =
      some (.ok ⟨[['k']], [[0, 15, 30]], ⟨[2], cols1⟩, none, none, [(['N'], .val (.int 8)), (['m', 'o'], .val (.str ['z']))]⟩) := by
  refine ⟨by decide +kernel, ?_⟩
  have := from_plaintext_1d_partial printer cols1 2 [0, 15, 30] info1 [(['N'], .int 8)] ['k'] (by omega) (by simp [cols1])
    (by
      intro q hq
      simp only [cols1, List.mem_cons, List.not_mem_nil, or_false] at hq
      rcases hq with rfl | rfl
      · exact ⟨⟨by simp, by decide⟩, by decide, rfl⟩
      · exact ⟨⟨by simp, by decide⟩, by decide, rfl, rfl⟩)
    (by decide) (by decide) (by decide)
    (by
      intro m hm
      simp only [info1, List.mem_cons, List.not_mem_nil, or_false] at hm
      rcases hm with rfl | rfl
      · exact ⟨⟨by simp, by decide⟩, ⟨by simp, by decide⟩, ⟨by simp, by decide⟩, Or.inl ⟨_, rfl, by decide +kernel⟩⟩
      · exact ⟨⟨by simp, by decide⟩, ⟨by simp, by decide⟩, ⟨by simp, by decide⟩, Or.inl ⟨_, rfl, rfl⟩⟩)
    (by decide) (by decide) (by decide) rfl 5 (by omega)
  exact this

/-- A file of one by two bins. -/
def cols2 : Dict (Col Nat) := [(['k'], .real [10, 11]), (['p'], .cplx [1, 2] [3, 4])]
def file2 : List Line := write2D printer ['k'] ['m'] 1 2 cols2 [5, 15] [0, 1, 2] info1

theorem case_2d :
    file2 = ["1 2\n".toList, "k p.real p.imag\n".toList, "10 1 3\n".toList, "11 2 4\n".toList, "k 2\n".toList, "5\n".toList, "15\n".toList,
      "m 3\n".toList, "0\n".toList, "1\n".toList, "2\n".toList, "metadata 2\n".toList, "N 7 int\n".toList, "mo z str\n".toList] ∧
    fromPlaintext prims 0 true [['k'], ['m']] file2 [] =
      some (.ok ⟨[['k'], ['m']], [[5, 15], [0, 1, 2]], ⟨[1, 2], cols2⟩, none, none,
        [(['N'], .val (.int 7)), (['m', 'o'], .val (.str ['z']))]⟩) := by
  refine ⟨by decide +kernel, ?_⟩
  have := from_plaintext_2d_partial printer ['k'] ['m'] ⟨by simp, by decide⟩ ⟨by simp, by decide⟩ 1 2 cols2 [5, 15] [0, 1, 2] info1 []
    ['k'] ['m'] (by omega) (by omega)
    (by
      intro q hq
      simp only [cols2, List.mem_cons, List.not_mem_nil, or_false] at hq
      rcases hq with rfl | rfl
      · exact ⟨⟨by simp, by decide⟩, by decide, rfl⟩
      · exact ⟨⟨by simp, by decide⟩, by decide, rfl, rfl⟩)
    (by decide)
    (by
      intro m hm
      simp only [info1, List.mem_cons, List.not_mem_nil, or_false] at hm
      rcases hm with rfl | rfl
      · exact ⟨⟨by simp, by decide⟩, ⟨by simp, by decide⟩, ⟨by simp, by decide⟩, Or.inl ⟨_, rfl, by decide +kernel⟩⟩
      · exact ⟨⟨by simp, by decide⟩, ⟨by simp, by decide⟩, ⟨by simp, by decide⟩, Or.inl ⟨_, rfl, rfl⟩⟩)
    (by decide) (by decide) (by simp) rfl rfl 0
  exact this

/-- Negation of the end of reading: a file whose count of edges is -1 is read forever. -/
theorem reads_forever (fuel : Nat) :
    fromPlaintext prims fuel true [['k']] ["# k\n".toList, "1\n".toList, "# edges -1\n".toList] [] = none := by
  have h1 : run prims ["# k\n".toList, "1\n".toList, "# edges -1\n".toList] fuel ⟨2, [[1]], [(sColumns, .names [['k']])]⟩ = none :=
    hangs prims _ " edges -1\n".toList ⟨2, [[1]], [(sColumns, .names [['k']])]⟩ (by decide) (by decide +kernel) (by decide +kernel)
      (by decide +kernel) fuel
  have h3 : ∀ f, run prims ["# k\n".toList, "1\n".toList, "# edges -1\n".toList] f ⟨2, [[1]], [(sColumns, .names [['k']])]⟩ = none :=
    fun f => hangs prims _ " edges -1\n".toList ⟨2, [[1]], [(sColumns, .names [['k']])]⟩ (by decide) (by decide +kernel)
      (by decide +kernel) (by decide +kernel) f
  have h2 : run prims ["# k\n".toList, "1\n".toList, "# edges -1\n".toList] fuel ⟨0, [], [(sColumns, .names [['k']])]⟩ = none := by
    match fuel with
    | 0 => decide +kernel
    | 1 => decide +kernel
    | f + 2 =>
      rw [run_step _ _ _ _ ⟨1, [], [(sColumns, .names [['k']])]⟩ (by decide +kernel) (by decide +kernel)]
      rw [run_step _ _ _ _ ⟨2, [[1]], [(sColumns, .names [['k']])]⟩ (by decide +kernel) (by decide +kernel)]
      exact h3 f
  have hh : header (F := Nat) (V := Val) "# k\n".toList = .ok [(sColumns, .names [['k']])] := by decide +kernel
  rw [fromPlaintext]
  simp only [Bool.not_true, Bool.false_eq_true, if_false, List.length_cons, List.length_nil, Nat.zero_add, if_true]
  rw [read1D, hh]
  dsimp only
  rw [h2]
  rfl

/-- A file without a line of column names: the line with the number of edges names the columns. -/
theorem edges_as_names :
    fromPlaintext prims 9 true [['k']] ["# edges 2\n".toList, "# 0\n".toList, "# 9\n".toList, "5 6\n".toList] [] =
      some (.ok ⟨[['k']], [[0, 9]], ⟨[1], [(sEdges, .real [5]), (['2'], .real [6])]⟩, none, none, []⟩) := by
  decide +kernel

/-- A blank line in the data makes the file unreadable. -/
theorem blank_line :
    fromPlaintext prims 9 true [['k']] ["# k\n".toList, "5\n".toList, "\n".toList, "# edges 2\n".toList, "# 0\n".toList, "# 9\n".toList] [] =
      some (.error .valueError) ∧
    fromPlaintext prims 9 true [['k']] ["# k\n".toList, "5\n".toList, "# edges 2\n".toList, "# 0\n".toList, "# 9\n".toList] [] =
      some (.ok ⟨[['k']], [[0, 9]], ⟨[1], [(['k'], .real [5])]⟩, none, none, []⟩) := by
  constructor <;> decide +kernel

/-- A column name that contains `edges` is taken for the announcement of edges. -/
theorem edges_in_name :
    fromPlaintext prims 9 true [['k']] ["# k kedges\n".toList, "5 6\n".toList, "# edges 2\n".toList, "# 0\n".toList, "# 9\n".toList] [] =
      some (.error .valueError) := by
  decide +kernel

/-- The imaginary part of another quantity is taken for that of the first. -/
theorem foreign_imag :
    fromPlaintext prims 9 true [['k']] ["# a.real b.imag\n".toList, "5 6\n".toList, "# edges 2\n".toList, "# 0\n".toList, "# 9\n".toList] [] =
      some (.ok ⟨[['k']], [[0, 9]], ⟨[1], [(['a'], .cplx [5] [6])]⟩, none, none, []⟩) := by
  decide +kernel

/-- Of several columns of one name the last one is kept; numbers without a name are dropped. -/
theorem columns_lost :
    fromPlaintext prims 9 true [['k']] ["# a a\n".toList, "5 6 7\n".toList, "# edges 2\n".toList, "# 0\n".toList, "# 9\n".toList] [] =
      some (.ok ⟨[['k']], [[0, 9]], ⟨[1], [(['a'], .real [6])]⟩, none, none, []⟩) := by
  decide +kernel

/-- The metadata: the word False is read as true, a text of several words is cut, and any builtin is called. -/
theorem metadata_values :
    fromPlaintext prims 9 true [['k']] ["# k\n".toList, "5\n".toList, "# edges 2\n".toList, "# 0\n".toList, "# 9\n".toList,
      "# metadata 3\n".toList, "# flag False bool\n".toList, "# name two words str\n".toList, "# x f() eval\n".toList] [] =
      some (.ok ⟨[['k']], [[0, 9]], ⟨[1], [(['k'], .real [5])]⟩, none, none,
        [("flag".toList, .val (.bool true)), ("name".toList, .val (.str "two".toList)),
          (['x'], .val (.called "eval".toList "f()".toList))]⟩) := by
  decide +kernel

/-- Metadata that are named like a parameter of `__init__`: `data` is an error, `coords` and `fields_to_sum` are taken away. -/
theorem metadata_names :
    fromPlaintext prims 9 true [['k']] ["# k\n".toList, "5\n".toList, "# edges 2\n".toList, "# 0\n".toList, "# 9\n".toList,
      "# metadata 1\n".toList, "# data 1 int\n".toList] [] = some (.error .typeError) ∧
    fromPlaintext prims 9 true [['k']] ["# k\n".toList, "5\n".toList, "# edges 2\n".toList, "# 0\n".toList, "# 9\n".toList,
      "# metadata 1\n".toList, "# coords 1 int\n".toList] [] =
      some (.ok ⟨[['k']], [[0, 9]], ⟨[1], [(['k'], .real [5])]⟩, none, some (.val (.int 1)), []⟩) := by
  constructor <;> decide +kernel

/-- In one dimension a file cut within the edges or the metadata is an error; in two dimensions missing metadata go unnoticed. -/
theorem truncated :
    fromPlaintext prims 9 true [['k']] ["# k\n".toList, "5\n".toList, "# edges 2\n".toList, "# 0\n".toList] [] = some (.error .valueError) ∧
    fromPlaintext prims 9 true [['k']] ["# k\n".toList, "5\n".toList, "# edges 2\n".toList, "# 0\n".toList, "# 9\n".toList,
      "# metadata 2\n".toList, "# N 1 int\n".toList] [] = some (.error .valueError) ∧
    fromPlaintext prims 9 true [['k'], ['m']] ["1 1\n".toList, "k\n".toList, "5\n".toList, "e 2\n".toList, "0\n".toList, "9\n".toList,
      "e 2\n".toList, "0\n".toList, "1\n".toList, "metadata 2\n".toList, "N 1 int\n".toList] [] =
      some (.ok ⟨[['k'], ['m']], [[0, 9], [0, 1]], ⟨[1, 1], [(['k'], .real [5])]⟩, none, none, [(['N'], .val (.int 1))]⟩) := by
  refine ⟨?_, ?_, ?_⟩ <;> decide +kernel

/-- In two dimensions the layout of the numbers does not matter: two lines of three and one number count as two rows of two. -/
theorem ragged_2d :
    fromPlaintext prims 9 true [['k'], ['m']] ["2 1\n".toList, "k p\n".toList, "5 6 7\n".toList, "8\n".toList, "e 3\n".toList, "0\n".toList,
      "9\n".toList, "10\n".toList, "e 2\n".toList, "0\n".toList, "1\n".toList] [] =
      some (.ok ⟨[['k'], ['m']], [[0, 9, 10], [0, 1]], ⟨[2, 1], [(['k'], .real [5, 7]), (['p'], .real [6, 8])]⟩, none, none, []⟩) ∧
    fromPlaintext prims 9 true [['k']] ["# k p\n".toList, "5 6 7\n".toList, "8\n".toList, "# edges 3\n".toList, "# 0\n".toList, "# 9\n".toList,
      "# 10\n".toList] [] = some (.error .valueError) := by
  constructor <;> decide +kernel

/-- A file read with the wrong number of dimensions, and three dimensions. -/
theorem wrong_dims :
    fromPlaintext prims 9 true [['k'], ['m']] file1 [] = some (.error .valueError) ∧
    fromPlaintext prims 20 true [['k']] file2 [] = some (.error .valueError) ∧
    fromPlaintext prims 20 true [['k'], ['m'], ['z']] file2 [] = some (.error .unbound) := by
  refine ⟨?_, ?_, ?_⟩ <;> decide +kernel

end NBK.Plain
