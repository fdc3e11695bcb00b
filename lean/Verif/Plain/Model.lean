/-!
# Model of the plain text readers of `BinnedStatistic` (nbodykit/binned_statistic.py 505-552, 957-1140)

A file is the list of its lines as `readlines` gives them, each a list of characters with its newline.  `float`, `int`, the functions
named in `__builtins__` and the attributes of numpy are parameters (`Prims`).  `F` is the type of the numbers, `V` that of the metadata.
White space is what `Char.isWhitespace` says; python knows some more separators.
-/
namespace NBK.Plain

abbrev Tok := List Char
abbrev Line := List Char

/-- The exceptions; those of the readers come out of `from_plaintext` as a ValueError. -/
inductive Err where
  | valueError
  | typeError
  | indexError
  | unbound
  deriving DecidableEq, Repr

/-- What the readers call: `float` on a string without blanks around it, `int`, and the functions found by name in `__builtins__` and in
numpy. A call that raises is `none`; `names` reads a value as a list of column names. -/
structure Prims (F V : Type) where
  flt : Tok → Option F
  int : Tok → Option Int
  builtin : Tok → Option (Tok → Option V)
  numpy : Tok → Option (Tok → Option V)
  names : V → Option (List Tok)

/-- The strings looked for. -/
def sEdges : Tok := ['e', 'd', 'g', 'e', 's']
def sMetadata : Tok := ['m', 'e', 't', 'a', 'd', 'a', 't', 'a']
def sColumns : Tok := ['c', 'o', 'l', 'u', 'm', 'n', 's']
def sReal : Tok := ['.', 'r', 'e', 'a', 'l']
def sImag : Tok := ['.', 'i', 'm', 'a', 'g']

/-- `str.split()`. -/
def splitWs : List Char → List Tok
  | [] => []
  | c :: cs =>
    if c.isWhitespace then splitWs cs
    else if (cs.head?.map Char.isWhitespace).getD true then [c] :: splitWs cs
    else match splitWs cs with
      | [] => [[c]]
      | t :: ts => (c :: t) :: ts

/-- `str.strip()`, which `float` does first. -/
def strip (l : List Char) : Tok :=
  ((l.dropWhile Char.isWhitespace).reverse.dropWhile Char.isWhitespace).reverse

/-- `sub in l` on strings. -/
def contains (sub : Tok) : List Char → Bool
  | [] => sub.isEmpty
  | c :: cs => sub.isPrefixOf (c :: cs) || contains sub cs

/-- `name.endswith(s)`. -/
def endsWith (name s : Tok) : Bool := s.isSuffixOf name

/-- `name.split(s)[0]`: what comes before the first `s`. -/
def before (s : Tok) : List Char → Tok
  | [] => []
  | c :: cs => if s.isPrefixOf (c :: cs) then [] else c :: before s cs

/-- `float(s)`. -/
def float {F V : Type} (p : Prims F V) (s : List Char) : Except Err F :=
  match p.flt (strip s) with
  | some x => .ok x
  | none => .error .valueError

/-- `int(fields[-1])` of the fields of a line. -/
def lastInt {F V : Type} (p : Prims F V) (l : Line) : Except Err Int :=
  match (splitWs l).getLast? with
  | none => .error .indexError
  | some t => match p.int t with
    | some n => .ok n
    | none => .error .valueError

/-- `lines[i]`, negative indices counting from the end. -/
def index {α : Type} (l : List α) (i : Int) : Except Err α :=
  let k := if i < 0 then i + l.length else i
  if k < 0 then .error .indexError
  else match l[k.toNat]? with
    | some x => .ok x
    | none => .error .indexError

/-- The bound of a slice. -/
def clip (n : Nat) (i : Int) : Nat := if i < 0 then (i + n).toNat else min i.toNat n

/-- `lines[a:b]`. -/
def slice {α : Type} (l : List α) (a b : Int) : List α := (l.take (clip l.length b)).drop (clip l.length a)

/-- A value of the dictionary `metadata`. -/
inductive MV (F V : Type) where
  | edges1 (l : List F)
  | edges2 (l : List (List F))
  | names (l : List Tok)
  | val (v : V)
  deriving DecidableEq, Repr

/-- A dictionary in the order of insertion. -/
abbrev Dict (α : Type) := List (Tok × α)

/-- `d[k] = v`. -/
def put {α : Type} (k : Tok) (v : α) : Dict α → Dict α
  | [] => [(k, v)]
  | p :: ps => if p.1 = k then (k, v) :: ps else p :: put k v ps

/-- `d.get(k)`. -/
def get {α : Type} (k : Tok) : Dict α → Option α
  | [] => none
  | p :: ps => if p.1 = k then some p.2 else get k ps

/-- What remains after `d.pop(k)`. -/
def del {α : Type} (k : Tok) (d : Dict α) : Dict α := d.filter fun p => p.1 ≠ k

/-- `d.update(e)`. -/
def update {α : Type} (d e : Dict α) : Dict α := e.foldl (fun d p => put p.1 p.2 d) d

/-- One line of metadata: `name value type`; the type is looked up among the builtins, then in numpy, and called on the second field
(binned_statistic.py 1020-1028, 1101-1108). -/
def metaLine {F V : Type} (p : Prims F V) (l : List Char) (m : Dict (MV F V)) : Except Err (Dict (MV F V)) :=
  let fields := splitWs l
  match fields.getLast? with
  | none => .error .indexError
  | some cast =>
    match p.builtin cast with
    | some f => match fields[0]?, fields[1]? with
      | some k, some s => match f s with
        | some v => .ok (put k (.val v) m)
        | none => .error .valueError
      | _, _ => .error .indexError
    | none => match p.numpy cast with
      | some f => match fields[0]?, fields[1]? with
        | some k, some s => match f s with
          | some v => .ok (put k (.val v) m)
          | none => .error .valueError
        | _, _ => .error .indexError
      | none => .error .typeError

/-- The state of the loop of `_Read1DPlainText`. -/
structure St (F V : Type) where
  cur : Int
  data : List (List F)
  info : Dict (MV F V)
  deriving DecidableEq, Repr

/-- The metadata lines `lines[currline+1+i][1:]` for `i` in `range(N)` (binned_statistic.py 1097-1110); `n` is the number left. -/
def metaBlock {F V : Type} (p : Prims F V) (lines : List Line) : (n : Nat) → (at_ : Int) → Dict (MV F V) → Except Err (Dict (MV F V))
  | 0, _, m => .ok m
  | n + 1, a, m => do
    let l ← index lines a
    let m ← metaLine p l.tail m
    metaBlock p lines n (a + 1) m

/-- The body of the loop of `_Read1DPlainText` (binned_statistic.py 1077-1113). -/
def step {F V : Type} (p : Prims F V) (lines : List Line) (s : St F V) : Except Err (St F V) := do
  let line ← index lines s.cur
  match line with
  | [] => .ok { s with cur := s.cur + 1 }
  | c :: rest =>
    if c ≠ '#' then do
      let row ← (splitWs line).mapM (float p)
      .ok { s with cur := s.cur + 1, data := s.data ++ [row] }
    else if contains sEdges rest then do
      let n ← lastInt p rest
      let e ← (slice lines (s.cur + 1) (s.cur + 1 + n)).mapM fun l => float p l.tail
      .ok { s with cur := s.cur + (1 + n), info := put sEdges (.edges1 e) s.info }
    else if contains sMetadata rest then do
      let n ← lastInt p rest
      let m ← metaBlock p lines n.toNat (s.cur + 1) s.info
      .ok { s with cur := s.cur + (1 + n), info := m }
    else .ok { s with cur := s.cur + 1 }

/-- The loop `while True` (binned_statistic.py 1071-1113), at most `fuel` times; `none` if it has not come to an end by then. -/
def run {F V : Type} (p : Prims F V) (lines : List Line) : Nat → St F V → Option (Except Err (St F V))
  | 0, s => if s.cur = lines.length then some (.ok s) else none
  | n + 1, s =>
    if s.cur = lines.length then some (.ok s)
    else match step p lines s with
      | .error e => some (.error e)
      | .ok s' => run p lines n s'

/-- A column of the data: real or complex. -/
inductive Col (F : Type) where
  | real (x : List F)
  | cplx (re im : List F)
  deriving DecidableEq, Repr

/-- A structured array. -/
structure Table (F : Type) where
  shape : List Nat
  cols : Dict (Col F)
  deriving DecidableEq, Repr

/-- `data[...,i]` of data given by its rows (binned_statistic.py 993-996, 1128-1131). -/
def column {F : Type} (rows : List (List F)) (i : Nat) : Except Err (List F) :=
  match rows.mapM (fun r => r[i]?) with
  | some c => .ok c
  | none => .error .indexError

/-- The loop over the columns, which makes complex columns from real and imaginary parts (binned_statistic.py 986-997, 1120-1132). -/
def assemble {F : Type} (rows : List (List F)) : (i : Nat) → List Tok → Dict (Col F) → Except Err (Dict (Col F))
  | _, [], d => .ok d
  | i, [n], d => do
    let c ← column rows i
    .ok (put n (.real c) d)
  | i, n :: m :: rest, d =>
    if endsWith n sReal && endsWith m sImag then do
      let re ← column rows i
      let im ← column rows (i + 1)
      assemble rows (i + 2) rest (put (before sReal n) (.cplx re im) d)
    else do
      let c ← column rows i
      assemble rows (i + 1) (m :: rest) (put n (.real c) d)

/-- `'col_%d' % i`. -/
def defaultName (i : Nat) : Tok := ['c', 'o', 'l', '_'] ++ (Nat.toDigits 10 i)

/-- The names of the columns: those of the first line or the default ones (binned_statistic.py 1118). -/
def columnNames {F V : Type} (p : Prims F V) (ncol : Nat) (m : Dict (MV F V)) : Except Err (List Tok) :=
  match get sColumns m with
  | none => .ok ((List.range ncol).map defaultName)
  | some (.names l) => .ok l
  | some (.val v) => match p.names v with
    | some l => .ok l
    | none => .error .typeError
  | some _ => .error .typeError

/-- What follows the loop (binned_statistic.py 1115-1140). The default of `metadata.pop` looks at `data.shape[1]`, which fails if there are
no rows or if they have different lengths. -/
def finish {F V : Type} (p : Prims F V) (rows : List (List F)) (m : Dict (MV F V)) : Except Err (Table F × Dict (MV F V)) :=
  match rows with
  | [] => .error .indexError
  | r :: rs =>
    if rs.all (fun q => q.length == r.length) then do
      let names ← columnNames p r.length m
      let d ← assemble rows 0 names []
      .ok (⟨[rows.length], d⟩, del sColumns m)
    else .error .indexError

/-- The names of the columns if the first line is a comment (binned_statistic.py 1064-1069). -/
def header {F V : Type} (l : Line) : Except Err (Dict (MV F V)) :=
  match l with
  | [] => .error .indexError
  | c :: rest => .ok (if c = '#' then [(sColumns, .names (splitWs rest))] else [])

/-- `_Read1DPlainText` (binned_statistic.py 1032-1140), with at most `fuel` turns of its loop. -/
def read1D {F V : Type} (p : Prims F V) (fuel : Nat) (lines : List Line) : Option (Except Err (Table F × Dict (MV F V))) :=
  match lines with
  | [] => some (.error .indexError)
  | l :: _ =>
    match header l with
    | .error e => some (.error e)
    | .ok m => match run p lines fuel ⟨0, [], m⟩ with
      | none => none
      | some (.error e) => some (.error e)
      | some (.ok s) => some (finish p s.data s.info)

/-- `Nk, Nmu = [int(l) for l in ff.readline().split()]` (binned_statistic.py 976). -/
def shapeLine {F V : Type} (p : Prims F V) (l : Line) : Except Err (Int × Int) :=
  match (splitWs l).mapM p.int with
  | some [a, b] => .ok (a, b)
  | _ => .error .valueError

/-- `data.reshape((Nk, Nmu, -1))` as the rows of the last axis (binned_statistic.py 984). -/
def reshape {F : Type} (nk nmu : Int) (flat : List F) : Except Err (List (List F)) :=
  if 0 < nk ∧ 0 < nmu then
    let n := (nk * nmu).toNat
    if flat.length % n = 0 then
      let d := flat.length / n
      .ok ((List.range n).map fun r => (flat.drop (r * d)).take d)
    else .error .valueError
  else .error .valueError

/-- The metadata of `_Read2DPlainText`: the lines there are, at most as many as announced (binned_statistic.py 1015-1028). -/
def metaLines {F V : Type} (p : Prims F V) : List Line → Dict (MV F V) → Except Err (Dict (MV F V))
  | [], m => .ok m
  | l :: ls, m => do
    let m ← metaLine p l m
    metaLines p ls m

/-- `_Read2DPlainText` (binned_statistic.py 957-1030); `readline` gives the empty string at the end of the file. -/
def read2D {F V : Type} (p : Prims F V) (file : List Line) : Except Err (Table F × Dict (MV F V)) := do
  let (nk, nmu) ← shapeLine p (file.headD [])
  let n := nk * nmu
  let columns := splitWs (file.tail.headD [])
  let lines := file.drop 2
  let flat ← ((slice lines 0 n).flatMap splitWs).mapM (float p)
  let rows ← reshape nk nmu flat
  let d ← assemble rows 0 columns []
  let l1 ← (index lines n).bind (lastInt p)
  let e1 ← (slice lines (n + 1) (n + 1 + l1)).mapM (float p)
  let l2 ← (index lines (n + 1 + l1)).bind (lastInt p)
  let a := n + 1 + l1 + 1
  let e2 ← (slice lines a (a + l2)).mapM (float p)
  let m : Dict (MV F V) := [(sEdges, .edges2 [e1, e2])]
  let m ← if a + l2 < lines.length then do
      let k ← (index lines (a + l2)).bind (lastInt p)
      metaLines p (slice lines (a + l2 + 1) (a + l2 + 1 + k)) m
    else .ok m
  .ok (⟨[nk.toNat, nmu.toNat], d⟩, m)

/-- The arguments with which `__init__` is called, after its tests of dimensions and shape (binned_statistic.py 144-157). -/
structure Args (F V : Type) where
  dims : List Tok
  edges : List (List F)
  data : Table F
  fts : Option (MV F V)
  coords : Option (MV F V)
  attrs : Dict (MV F V)
  deriving DecidableEq, Repr

/-- The names `fields_to_sum` and `coords`, which are parameters of `__init__`, and those given already. -/
def sFts : Tok := ['f', 'i', 'e', 'l', 'd', 's', '_', 't', 'o', '_', 's', 'u', 'm']
def sCoords : Tok := ['c', 'o', 'o', 'r', 'd', 's']
def sTaken : List Tok := [['s', 'e', 'l', 'f'], ['d', 'i', 'm', 's'], sEdges, ['d', 'a', 't', 'a']]

/-- `cls(dims, edges, data, **meta)` (binned_statistic.py 552, 144-157). -/
def construct {F V : Type} (dims : List Tok) (edges : List (List F)) (data : Table F) (m : Dict (MV F V)) : Except Err (Args F V) :=
  if m.any (fun q => q.1 ∈ sTaken) then .error .typeError
  else if dims.length ≠ edges.length then .error .valueError
  else if (data.shape.map fun (k : Nat) => (k : Int)) ≠ edges.map (fun e => (e.length : Int) - 1) then .error .valueError
  else .ok ⟨dims, edges, data, get sFts m, get sCoords m, del sFts (del sCoords m)⟩

/-- The end of `from_plaintext` (binned_statistic.py 544-552). Edges taken from the metadata proper are an error of `__init__`. -/
def build {F V : Type} (dims : List Tok) (kwargs : Dict V) (r : Table F × Dict (MV F V)) : Except Err (Args F V) :=
  match get sEdges r.2 with
  | none => .error .valueError
  | some (.edges1 e) => construct dims [e] r.1 (update (del sEdges r.2) (kwargs.map fun q => (q.1, .val q.2)))
  | some (.edges2 e) => construct dims e r.1 (update (del sEdges r.2) (kwargs.map fun q => (q.1, .val q.2)))
  | some _ => .error .typeError

/-- An exception of a reader becomes a ValueError (binned_statistic.py 539-542). -/
def wrap {α : Type} : Except Err α → Except Err α
  | .ok a => .ok a
  | .error _ => .error .valueError

/-- `BinnedStatistic.from_plaintext` (binned_statistic.py 505-552); `isList` says whether `dims` is a list or a tuple. -/
def fromPlaintext {F V : Type} (p : Prims F V) (fuel : Nat) (isList : Bool) (dims : List Tok) (lines : List Line) (kwargs : Dict V) :
    Option (Except Err (Args F V)) :=
  if !isList then some (.error .typeError)
  else if dims.length = 1 then
    (read1D p fuel lines).map fun r => (wrap r).bind (build dims kwargs)
  else if dims.length = 2 then some ((wrap (read2D p lines)).bind (build dims kwargs))
  else some (.error .unbound)

end NBK.Plain
