import Verif.Plain.Lemmas

/-!
# C115, one dimension: what was written in the plain text format is read back

`Printer` is any way to write numbers and counts that the readers' `float` and `int` undo; `Doc` is what a file holds.  The files are
written with a header line of column names, one line per bin, the edges and the metadata, which is the layout the reader documents.
-/
set_option linter.unusedSimpArgs false
namespace NBK.Plain
variable {F V : Type}

/-- A way to write numbers and counts. -/
structure Printer (p : Prims F V) where
  num : F → Tok
  cnt : Nat → Tok
  num_tok : ∀ x, IsTok (num x)
  num_hash : ∀ x, (num x).head? ≠ some '#'
  num_read : ∀ x, p.flt (num x) = some x
  cnt_tok : ∀ n, IsTok (cnt n)
  cnt_e : ∀ n, 'e' ∉ cnt n
  cnt_read : ∀ n, p.int (cnt n) = some (n : Int)

/-- A line of metadata and the value it stands for. -/
structure Info (V : Type) where
  key : Tok
  value : Tok
  cast : Tok
  v : V

/-- The type named in the line gives the value: a builtin or, if there is none of this name, something in numpy. -/
def Info.Ok (p : Prims F V) (m : Info V) : Prop :=
  IsTok m.key ∧ IsTok m.value ∧ IsTok m.cast ∧
  ((∃ f, p.builtin m.cast = some f ∧ f m.value = some m.v) ∨
    (p.builtin m.cast = none ∧ ∃ f, p.numpy m.cast = some f ∧ f m.value = some m.v))

/-- The columns of numbers that hold a column. -/
def parts : Tok × Col F → List (Tok × List F)
  | (n, .real x) => [(n, x)]
  | (n, .cplx re im) => [(n ++ sReal, re), (n ++ sImag, im)]

/-- The columns of a file, with `n` values each. A complex column gives two columns of numbers; a name must not look like one of these. -/
def ColOk (n : Nat) (q : Tok × Col F) : Prop :=
  match q.2 with
  | .real x => IsTok q.1 ∧ endsWith q.1 sReal = false ∧ x.length = n
  | .cplx re im => IsTok q.1 ∧ contains sReal q.1 = false ∧ re.length = n ∧ im.length = n

/-- The values of row `r`. -/
def row [Inhabited F] (flat : List (Tok × List F)) (r : Nat) : List F := flat.map fun q => q.2.getD r default

def rowsOf [Inhabited F] (flat : List (Tok × List F)) (n : Nat) : List (List F) := (List.range n).map (row flat)

/-- The lines of a file in one dimension. -/
def write1D [Inhabited F] {p : Prims F V} (w : Printer p) (cols : Dict (Col F)) (n : Nat) (edges : List F) (info : List (Info V)) :
    List Line :=
  let flat := cols.flatMap parts
  ('#' :: words (flat.map Prod.fst)) ::
    ((rowsOf flat n).map (fun r => wordLine (r.map w.num)) ++
    (('#' :: words [sEdges, w.cnt edges.length]) :: edges.map (fun e => '#' :: words [w.num e]) ++
    (('#' :: words [sMetadata, w.cnt info.length]) :: info.map (fun m => '#' :: words [m.key, m.value, m.cast]))))

/-- A value without the file: what the metadata of the file become. -/
def infoDict (info : List (Info V)) : Dict (MV F V) := info.map fun m => (m.key, .val m.v)

theorem before_real (n : Tok) (h : contains sReal n = false) : before sReal (n ++ sReal) = n := by
  induction n with
  | nil => decide
  | cons c cs ih =>
    simp only [contains, Bool.or_eq_false_iff] at h
    rw [List.cons_append, before]
    have hp : sReal.isPrefixOf (c :: (cs ++ sReal)) = false := by
      have h1 := h.1
      rcases cs with _ | ⟨c1, _ | ⟨c2, _ | ⟨c3, _ | ⟨c4, cs⟩⟩⟩⟩
      · simp [sReal, List.isPrefixOf] at *
      · simp [sReal, List.isPrefixOf] at *
      · simp [sReal, List.isPrefixOf] at *
      · simp [sReal, List.isPrefixOf] at *
      · simpa [sReal, List.isPrefixOf] using h1
    rw [hp]
    simp [ih h.2]

theorem endsWith_append (n s : Tok) : endsWith (n ++ s) s = true := by
  simp [endsWith, List.isSuffixOf_iff_suffix]

theorem column_rows [Inhabited F] (pre post : List (Tok × List F)) (q : Tok × List F) (n : Nat) (h : q.2.length = n) :
    column (rowsOf (pre ++ q :: post) n) pre.length = .ok q.2 := by
  have hm : (rowsOf (pre ++ q :: post) n).mapM (fun r => r[pre.length]?) = some ((List.range n).map fun r => q.2.getD r default) := by
    unfold rowsOf
    generalize List.range n = l
    induction l with
    | nil => rfl
    | cons a l ih =>
      rw [List.map_cons, List.mapM_cons, ih]
      simp [row]
  rw [column, hm]
  dsimp only
  congr 1
  apply List.ext_getElem
  · simp [h]
  · intro i h1 h2
    simp [List.getD, h2]

theorem assemble_flat [Inhabited F] (n : Nat) (cols : Dict (Col F)) (pre : List (Tok × List F)) (d : Dict (Col F))
    (hok : ∀ q ∈ cols, ColOk n q) (hnd : ((d ++ cols).map Prod.fst).Nodup) :
    assemble (rowsOf (pre ++ cols.flatMap parts) n) pre.length ((cols.flatMap parts).map Prod.fst) d = .ok (d ++ cols) := by
  induction cols generalizing pre d with
  | nil => simp [assemble]
  | cons q cols ih =>
    obtain ⟨name, col⟩ := q
    have hname : name ∉ d.map Prod.fst := by
      intro hm
      rw [List.map_append, List.nodup_append] at hnd
      exact hnd.2.2 name hm name (by simp) rfl
    have hq := hok (name, col) (by simp)
    have hnd' : (((d ++ [(name, col)]) ++ cols).map Prod.fst).Nodup := by simpa using hnd
    have hok' : ∀ q ∈ cols, ColOk n q := fun q hq => hok q (by simp [hq])
    cases col with
    | real x =>
      obtain ⟨_, he, hx⟩ := hq
      have hc := column_rows pre (cols.flatMap parts) (name, x) n hx
      have ih := ih (pre ++ [(name, x)]) (d ++ [(name, .real x)]) hok' hnd'
      simp only [List.flatMap_cons, parts, List.map_append, List.map_cons, List.map_nil, List.singleton_append, List.cons_append,
        List.nil_append, List.append_assoc, List.length_append, List.length_cons, List.length_nil] at ih hc ⊢
      cases hr : (cols.flatMap parts).map Prod.fst with
      | nil =>
        rw [hr, assemble] at ih
        have h0 : cols = [] := by simpa using ih
        subst h0
        simp only [List.flatMap_nil] at hc ⊢
        rw [assemble, hc]
        simp only [bind, Except.bind]
        rw [put_new _ _ _ hname]
      | cons m rest =>
        rw [hr] at ih
        rw [assemble, he, hc]
        simp only [bind, Except.bind, Bool.false_and, Bool.false_eq_true, if_false]
        rw [put_new _ _ _ hname]
        exact ih
    | cplx re im =>
      obtain ⟨_, he, hre, him⟩ := hq
      have hc := column_rows pre ((name ++ sImag, im) :: cols.flatMap parts) (name ++ sReal, re) n hre
      have hc2 := column_rows (pre ++ [(name ++ sReal, re)]) (cols.flatMap parts) (name ++ sImag, im) n him
      have ih := ih (pre ++ [(name ++ sReal, re), (name ++ sImag, im)]) (d ++ [(name, .cplx re im)]) hok' hnd'
      simp only [List.flatMap_cons, parts, List.map_append, List.map_cons, List.map_nil, List.singleton_append, List.cons_append,
        List.nil_append, List.append_assoc, List.length_append, List.length_cons, List.length_nil] at ih hc hc2 ⊢
      rw [assemble, endsWith_append, endsWith_append, hc, hc2]
      simp only [bind, Except.bind, Bool.true_and, if_true]
      rw [before_real name he, put_new _ _ _ hname]
      exact ih

theorem float_num {p : Prims F V} (w : Printer p) (x : F) : float p (w.num x) = .ok x := by
  rw [float, strip_tok _ (w.num_tok x), w.num_read]

theorem float_edge {p : Prims F V} (w : Printer p) (x : F) : float p (words [w.num x]) = .ok x := by
  rw [float]
  have : words [w.num x] = ' ' :: w.num x ++ ['\n'] := by simp [words]
  rw [this, strip_space_tok_nl _ (w.num_tok x), w.num_read]

theorem float_line {p : Prims F V} (w : Printer p) (x : F) : float p (wordLine [w.num x]) = .ok x := by
  rw [float]
  have : wordLine [w.num x] = w.num x ++ ['\n'] := by simp [wordLine, words]
  rw [this, strip_tok_nl _ (w.num_tok x), w.num_read]

theorem isTok_edges : IsTok sEdges := ⟨by decide, by decide⟩
theorem isTok_metadata : IsTok sMetadata := ⟨by decide, by decide⟩

theorem lastInt_words {p : Prims F V} (w : Printer p) (t : Tok) (ht : IsTok t) (n : Nat) :
    lastInt p (words [t, w.cnt n]) = .ok (n : Int) := by
  rw [lastInt, splitWs_words _ (by
    intro x hx
    simp only [List.mem_cons, List.not_mem_nil, or_false] at hx
    rcases hx with rfl | rfl
    · exact ht
    · exact w.cnt_tok n)]
  simp [w.cnt_read]

theorem metaLine_words {p : Prims F V} (m : Info V) (h : m.Ok p) (d : Dict (MV F V)) :
    metaLine p (words [m.key, m.value, m.cast]) d = .ok (put m.key (.val m.v) d) := by
  obtain ⟨hk, hv, hc, h⟩ := h
  rw [metaLine, splitWs_words _ (by
    intro x hx
    simp only [List.mem_cons, List.not_mem_nil, or_false] at hx
    rcases hx with rfl | rfl | rfl
    · exact hk
    · exact hv
    · exact hc)]
  rcases h with ⟨f, h1, h2⟩ | ⟨h0, f, h1, h2⟩
  · simp [h1, h2]
  · simp [h0, h1, h2]

theorem metaBlock_words {p : Prims F V} (pre post : List Line) (info : List (Info V)) (h : ∀ m ∈ info, m.Ok p)
    (d : Dict (MV F V)) (hnd : ((d.map Prod.fst) ++ info.map Info.key).Nodup) :
    metaBlock p (pre ++ info.map (fun m => '#' :: words [m.key, m.value, m.cast]) ++ post) info.length pre.length d =
      .ok (d ++ infoDict info) := by
  induction info generalizing pre d with
  | nil => simp [metaBlock, infoDict]
  | cons m info ih =>
    have hk : m.key ∉ d.map Prod.fst := by
      intro hm
      rw [List.nodup_append] at hnd
      exact hnd.2.2 m.key hm m.key (by simp) rfl
    have ih := ih (pre ++ ['#' :: words [m.key, m.value, m.cast]]) (fun x hx => h x (by simp [hx])) (d ++ [(m.key, .val m.v)])
      (by simpa using hnd)
    rw [List.length_cons, metaBlock, index_nat _ _ ('#' :: words [m.key, m.value, m.cast]) (by simp)]
    simp only [bind, Except.bind, List.tail_cons]
    rw [metaLine_words m (h m (by simp))]
    simp only [bind, Except.bind]
    rw [put_new _ _ _ hk]
    simp only [List.append_assoc, List.cons_append, List.nil_append, List.length_append, List.length_cons, List.length_nil,
      List.map_cons, infoDict, Int.natCast_add, Int.natCast_one, Nat.zero_add] at ih ⊢
    exact ih

theorem run_rows {p : Prims F V} (w : Printer p) (pre post : List Line) (rows : List (List F)) (hr : ∀ r ∈ rows, r ≠ [])
    (fuel : Nat) (data : List (List F)) (info : Dict (MV F V)) :
    run p (pre ++ rows.map (fun r => wordLine (r.map w.num)) ++ post) (rows.length + fuel) ⟨pre.length, data, info⟩ =
      run p (pre ++ rows.map (fun r => wordLine (r.map w.num)) ++ post) fuel ⟨pre.length + rows.length, data ++ rows, info⟩ := by
  induction rows generalizing pre data with
  | nil => simp
  | cons r rows ih =>
    have ih := ih (pre ++ [wordLine (r.map w.num)]) (fun x hx => hr x (by simp [hx])) (data ++ [r])
    obtain ⟨x, xs, rfl⟩ := List.exists_cons_of_ne_nil (hr r (by simp))
    have hh : ∃ c cs, wordLine ((x :: xs).map w.num) = c :: cs ∧ c ≠ '#' := by
      have h1 := w.num_tok x
      have h2 := w.num_hash x
      cases e : w.num x with
      | nil => exact absurd e h1.1
      | cons c cs =>
        refine ⟨c, cs ++ words (xs.map w.num), by simp [wordLine, e], ?_⟩
        rw [e] at h2
        simpa using h2
    obtain ⟨c, cs, he, hc⟩ := hh
    rw [show (List.length ((x :: xs) :: rows)) + fuel = (rows.length + fuel) + 1 from by simp; omega]
    rw [run_step _ _ _ _ ⟨(pre.length : Int) + 1, data ++ [x :: xs], info⟩ (by simp; omega)]
    · simp only [List.append_assoc, List.cons_append, List.nil_append, List.length_append, List.length_cons, List.length_nil,
        List.map_cons, Int.natCast_add, Int.natCast_one, Nat.zero_add] at ih ⊢
      rw [ih]
      congr 2
      omega
    · rw [step, index_nat _ _ (wordLine ((x :: xs).map w.num)) (by simp)]
      simp only [bind, Except.bind]
      have hs : (splitWs (wordLine ((x :: xs).map w.num))).mapM (float p) = .ok (x :: xs) := by
        rw [splitWs_wordLine _ (by
          intro t ht
          obtain ⟨y, _, rfl⟩ := List.mem_map.1 ht
          exact w.num_tok y), mapM_ok_of (float p) w.num id (x :: xs) (fun a _ => float_num w a)]
        simp
      rw [he] at hs ⊢
      simp only [ne_eq, hc, not_false_eq_true, if_true, hs]

theorem contains_edges (r : List Char) : contains sEdges (' ' :: (sEdges ++ r)) = true := by
  simp [contains, sEdges, List.isPrefixOf]

theorem contains_metadata (r : List Char) : contains sMetadata (' ' :: (sMetadata ++ r)) = true := by
  simp [contains, sMetadata, List.isPrefixOf]

theorem metadata_not_edges (r : List Char) (h : 'e' ∉ r) : contains sEdges (' ' :: (sMetadata ++ r)) = false := by
  have := contains_false 'e' ['d', 'g', 'e', 's'] r h
  simp only [contains, sMetadata, sEdges, List.cons_append, List.nil_append, List.isPrefixOf] at *
  simp [this]

theorem run1D [Inhabited F] {p : Prims F V} (w : Printer p) (cols : Dict (Col F)) (n : Nat) (edges : List F) (info : List (Info V))
    (hflat : cols.flatMap parts ≠ [])
    (hnames : ∀ t ∈ (cols.flatMap parts).map Prod.fst, IsTok t)
    (hhe : contains sEdges (words ((cols.flatMap parts).map Prod.fst)) = false)
    (hhm : contains sMetadata (words ((cols.flatMap parts).map Prod.fst)) = false)
    (hinfo : ∀ m ∈ info, m.Ok p) (hkeys : (sColumns :: sEdges :: info.map Info.key).Nodup) (k : Nat) :
    run p (write1D w cols n edges info) (n + 3 + k) ⟨0, [], [(sColumns, .names ((cols.flatMap parts).map Prod.fst))]⟩ =
      some (.ok ⟨((write1D w cols n edges info).length : Int), rowsOf (cols.flatMap parts) n,
        (sColumns, .names ((cols.flatMap parts).map Prod.fst)) :: (sEdges, .edges1 edges) :: infoDict info⟩) := by
  have hlines : write1D w cols n edges info =
      ['#' :: words ((cols.flatMap parts).map Prod.fst)] ++ (rowsOf (cols.flatMap parts) n).map (fun r => wordLine (r.map w.num)) ++
      (('#' :: words [sEdges, w.cnt edges.length]) :: edges.map (fun e => '#' :: words [w.num e]) ++
      (('#' :: words [sMetadata, w.cnt info.length]) :: info.map (fun m => '#' :: words [m.key, m.value, m.cast]))) := by
    simp [write1D]
  have hrl : (rowsOf (cols.flatMap parts) n).length = n := by simp [rowsOf]
  have hne : ∀ r ∈ rowsOf (cols.flatMap parts) n, r ≠ [] := by
    intro r hr
    obtain ⟨i, _, rfl⟩ := List.mem_map.1 hr
    simpa [row] using hflat
  have hrun := run_rows w ['#' :: words ((cols.flatMap parts).map Prod.fst)]
    (('#' :: words [sEdges, w.cnt edges.length]) :: edges.map (fun e => '#' :: words [w.num e]) ++
      (('#' :: words [sMetadata, w.cnt info.length]) :: info.map (fun m => '#' :: words [m.key, m.value, m.cast])))
    (rowsOf (cols.flatMap parts) n) hne (2 + k) [] [(sColumns, .names ((cols.flatMap parts).map Prod.fst))]
  rw [← hlines, hrl] at hrun
  have hlen : (write1D w cols n edges info).length = 1 + n + (1 + edges.length) + (1 + info.length) := by
    rw [hlines]
    simp [hrl]
    omega
  rw [show n + 3 + k = (n + (2 + k)) + 1 from by omega]
  rw [run_step _ _ _ _ ⟨1, [], [(sColumns, .names ((cols.flatMap parts).map Prod.fst))]⟩ (by simp only; omega)]
  · simp only [List.length_cons, List.length_nil, Nat.zero_add, Int.natCast_one, List.nil_append] at hrun
    rw [hrun, show 2 + k = (1 + k) + 1 from by omega]
    rw [run_step _ _ _ _ ⟨((1 + n + 1 + edges.length : Nat) : Int), rowsOf (cols.flatMap parts) n,
      [(sColumns, .names ((cols.flatMap parts).map Prod.fst)), (sEdges, .edges1 edges)]⟩ (by simp only; omega)]
    · rw [show 1 + k = k + 1 from by omega]
      rw [run_step _ _ _ _ ⟨((write1D w cols n edges info).length : Int), rowsOf (cols.flatMap parts) n,
        (sColumns, .names ((cols.flatMap parts).map Prod.fst)) :: (sEdges, .edges1 edges) :: infoDict info⟩ (by simp only; omega)]
      · exact run_done _ _ _ _ rfl
      · have hidx : (write1D w cols n edges info)[1 + n + 1 + edges.length]? = some ('#' :: words [sMetadata, w.cnt info.length]) := by
          rw [hlines]
          rw [List.getElem?_append_right (by simp [hrl]; omega), List.getElem?_append_right (by simp [hrl]; omega)]
          simp [hrl]
          rw [show 1 + n + 1 + edges.length - (n + 1) - (edges.length + 1) = 0 from by omega]
          rfl
        have hmb := metaBlock_words (p := p) (['#' :: words ((cols.flatMap parts).map Prod.fst)] ++
            (rowsOf (cols.flatMap parts) n).map (fun r => wordLine (r.map w.num)) ++
            (('#' :: words [sEdges, w.cnt edges.length]) :: edges.map (fun e => '#' :: words [w.num e]) ++
            [('#' :: words [sMetadata, w.cnt info.length])])) [] info hinfo
            [(sColumns, .names ((cols.flatMap parts).map Prod.fst)), (sEdges, .edges1 edges)] (by simpa using hkeys)
        have hl2 : (['#' :: words ((cols.flatMap parts).map Prod.fst)] ++
            (rowsOf (cols.flatMap parts) n).map (fun r => wordLine (r.map w.num)) ++
            (('#' :: words [sEdges, w.cnt edges.length]) :: edges.map (fun e => '#' :: words [w.num e]) ++
            [('#' :: words [sMetadata, w.cnt info.length])])) ++
            info.map (fun m => '#' :: words [m.key, m.value, m.cast]) ++ [] = write1D w cols n edges info := by
          rw [hlines]; simp
        rw [hl2] at hmb
        rw [step, index_nat _ _ _ hidx]
        simp only [bind, Except.bind]
        have hce : contains sEdges (words [sMetadata, w.cnt info.length]) = false := by
          apply metadata_not_edges
          simp [words, w.cnt_e]
        have hcm : contains sMetadata (words [sMetadata, w.cnt info.length]) = true := contains_metadata _
        simp only [ne_eq, not_true_eq_false, if_false, hce, hcm, if_true, Bool.false_eq_true, lastInt_words w _ isTok_metadata,
          Int.toNat_natCast]
        have hat : (((1 + n + 1 + edges.length : Nat) : Int) + 1) = ((['#' :: words ((cols.flatMap parts).map Prod.fst)] ++
            (rowsOf (cols.flatMap parts) n).map (fun r => wordLine (r.map w.num)) ++
            (('#' :: words [sEdges, w.cnt edges.length]) :: edges.map (fun e => '#' :: words [w.num e]) ++
            [('#' :: words [sMetadata, w.cnt info.length])])).length : Int) := by
          simp [hrl]; omega
        rw [hat, hmb]
        simp only [List.cons_append, List.nil_append]
        congr 2
        rw [hlen]; omega
    · have hidx : (write1D w cols n edges info)[1 + n]? = some ('#' :: words [sEdges, w.cnt edges.length]) := by
        rw [hlines]
        rw [List.getElem?_append_right (by simp [hrl]; omega)]
        simp [hrl]
        rw [show 1 + n - (n + 1) = 0 from by omega]
        rfl
      have hi := index_nat _ _ _ hidx
      rw [step]
      simp only [Int.natCast_add, Int.natCast_one] at hi ⊢
      rw [hi]
      simp only [bind, Except.bind]
      have hce : contains sEdges (words [sEdges, w.cnt edges.length]) = true := contains_edges _
      have hsl := slice_mid (['#' :: words ((cols.flatMap parts).map Prod.fst)] ++
          (rowsOf (cols.flatMap parts) n).map (fun r => wordLine (r.map w.num)) ++ [('#' :: words [sEdges, w.cnt edges.length])])
          (edges.map (fun e => '#' :: words [w.num e]))
          (('#' :: words [sMetadata, w.cnt info.length]) :: info.map (fun m => '#' :: words [m.key, m.value, m.cast]))
      have hl2 : (['#' :: words ((cols.flatMap parts).map Prod.fst)] ++
          (rowsOf (cols.flatMap parts) n).map (fun r => wordLine (r.map w.num)) ++ [('#' :: words [sEdges, w.cnt edges.length])]) ++
          (edges.map (fun e => '#' :: words [w.num e])) ++
          (('#' :: words [sMetadata, w.cnt info.length]) :: info.map (fun m => '#' :: words [m.key, m.value, m.cast])) =
          write1D w cols n edges info := by
        rw [hlines]; simp
      rw [hl2] at hsl
      have hs1 : slice (write1D w cols n edges info) (1 + (n : Int) + 1) (1 + (n : Int) + 1 + edges.length) =
          edges.map (fun e => '#' :: words [w.num e]) := by
        rw [← hsl]
        simp only [List.length_append, List.length_cons, List.length_nil, List.length_map, hrl, Int.natCast_add, Int.natCast_one,
          Nat.zero_add]
      simp only [ne_eq, not_true_eq_false, if_false, hce, if_true, lastInt_words w _ isTok_edges, hs1]
      rw [mapM_ok_of (fun l => float p l.tail) (fun e => '#' :: words [w.num e]) id edges (fun a _ => float_edge w a)]
      simp only [List.map_id_fun, id_eq]
      congr 2
      · omega
  · rw [step, show (0 : Int) = ((0 : Nat) : Int) from rfl,
      index_nat _ 0 ('#' :: words ((cols.flatMap parts).map Prod.fst)) (by rw [hlines]; simp)]
    simp [bind, Except.bind, hhe, hhm]

/-- The names that are parameters of `__init__`. -/
def reserved : List Tok := sTaken ++ [sFts, sCoords]

theorem put_keys {α : Type} (k : Tok) (v : α) (d : Dict α) (x : Tok) (h : x ∈ (put k v d).map Prod.fst) : x = k ∨ x ∈ d.map Prod.fst := by
  induction d with
  | nil => simpa [put] using h
  | cons q d ih =>
    by_cases e : q.1 = k
    · rw [put, if_pos e] at h
      simp only [List.map_cons, List.mem_cons] at h ⊢
      rcases h with h | h
      · exact Or.inl h
      · exact Or.inr (Or.inr h)
    · rw [put, if_neg e] at h
      simp only [List.map_cons, List.mem_cons] at h ⊢
      rcases h with h | h
      · exact Or.inr (Or.inl h)
      · rcases ih h with h | h
        · exact Or.inl h
        · exact Or.inr (Or.inr h)

theorem update_keys {α : Type} (d e : Dict α) (x : Tok) (h : x ∈ (update d e).map Prod.fst) :
    x ∈ e.map Prod.fst ∨ x ∈ d.map Prod.fst := by
  induction e generalizing d with
  | nil => exact Or.inr h
  | cons q e ih =>
    rcases ih (put q.1 q.2 d) h with h | h
    · exact Or.inl (by simp only [List.map_cons, List.mem_cons]; exact Or.inr h)
    · rcases put_keys _ _ _ _ h with h | h
      · exact Or.inl (by simp only [List.map_cons, List.mem_cons]; exact Or.inl h)
      · exact Or.inr h

theorem get_put {α : Type} (k : Tok) (v : α) (d : Dict α) (x : Tok) : get x (put k v d) = if k = x then some v else get x d := by
  induction d with
  | nil => simp [put, get]
  | cons q d ih =>
    by_cases e : q.1 = k
    · rw [put, if_pos e]
      by_cases h : k = x
      · simp [get, h]
      · simp [get, h, e]
    · rw [put, if_neg e]
      by_cases h : q.1 = x
      · have : ¬ k = x := fun h' => e (h.trans h'.symm)
        simp [get, h, this]
      · simp [get, h, ih]

/-- After `update` the new dictionary, whose keys are distinct, comes first. -/
theorem get_update {α : Type} (d e : Dict α) (hnd : (e.map Prod.fst).Nodup) (x : Tok) :
    get x (update d e) = (get x e).or (get x d) := by
  induction e generalizing d with
  | nil => rfl
  | cons q e ih =>
    simp only [List.map_cons, List.nodup_cons] at hnd
    have h1 : update d (q :: e) = update (put q.1 q.2 d) e := rfl
    rw [h1, ih _ hnd.2, get_put]
    by_cases h : q.1 = x
    · subst h
      rw [get_none q.1 e hnd.1]
      simp [get]
    · simp [get, h]

theorem construct_ok (dims : List Tok) (edges : List (List F)) (data : Table F) (m : Dict (MV F V))
    (hk : ∀ t ∈ m.map Prod.fst, t ∉ reserved) (hd : dims.length = edges.length)
    (hs : (data.shape.map fun (k : Nat) => (k : Int)) = edges.map (fun e => (e.length : Int) - 1)) :
    construct dims edges data m = .ok ⟨dims, edges, data, none, none, m⟩ := by
  have h1 : m.any (fun q => q.1 ∈ sTaken) = false := by
    rw [List.any_eq_false]
    intro q hq h
    exact hk q.1 (List.mem_map.2 ⟨q, hq, rfl⟩) (by simp only [reserved, List.mem_append]; exact Or.inl (by simpa using h))
  have h2 : sFts ∉ m.map Prod.fst := fun h => hk _ h (by simp [reserved])
  have h3 : sCoords ∉ m.map Prod.fst := fun h => hk _ h (by simp [reserved])
  rw [construct, h1]
  simp only [Bool.false_eq_true, if_false, hd, ne_eq, not_true_eq_false, hs]
  rw [get_none _ _ h2, get_none _ _ h3, del_none _ _ h3, del_none _ _ h2]

theorem names_tok (n : Nat) (cols : Dict (Col F)) (h : ∀ q ∈ cols, ColOk n q) : ∀ t ∈ (cols.flatMap parts).map Prod.fst, IsTok t := by
  intro t ht
  obtain ⟨q, hq, rfl⟩ := List.mem_map.1 ht
  obtain ⟨⟨name, col⟩, hc, hq⟩ := List.mem_flatMap.1 hq
  have hk := h _ hc
  cases col with
  | real x =>
    simp only [parts, List.mem_cons, List.not_mem_nil, or_false] at hq
    subst hq
    exact hk.1
  | cplx re im =>
    simp only [parts, List.mem_cons, List.not_mem_nil, or_false] at hq
    have hr : ∀ c ∈ sReal, c.isWhitespace = false := by decide
    have hi : ∀ c ∈ sImag, c.isWhitespace = false := by decide
    rcases hq with rfl | rfl
    · refine ⟨by simp [sReal], fun c hc => ?_⟩
      rcases List.mem_append.1 hc with hc | hc
      · exact hk.1.2 c hc
      · exact hr c hc
    · refine ⟨by simp [sImag], fun c hc => ?_⟩
      rcases List.mem_append.1 hc with hc | hc
      · exact hk.1.2 c hc
      · exact hi c hc

theorem parts_ne (cols : Dict (Col F)) (h : cols ≠ []) : cols.flatMap parts ≠ [] := by
  cases cols with
  | nil => exact absurd rfl h
  | cons q cols =>
    obtain ⟨n, c⟩ := q
    cases c <;> simp [parts]

/-- Reading a file of one dimension gives the columns and metadata that were written. -/
theorem read1D_write [Inhabited F] {p : Prims F V} (w : Printer p) (cols : Dict (Col F)) (n : Nat) (edges : List F)
    (info : List (Info V)) (hn : 0 < n) (hcols : cols ≠ []) (hok : ∀ q ∈ cols, ColOk n q) (hnd : (cols.map Prod.fst).Nodup)
    (hhe : contains sEdges (words ((cols.flatMap parts).map Prod.fst)) = false)
    (hhm : contains sMetadata (words ((cols.flatMap parts).map Prod.fst)) = false)
    (hinfo : ∀ m ∈ info, m.Ok p) (hkeys : (sColumns :: sEdges :: info.map Info.key).Nodup) (fuel : Nat) (hf : n + 3 ≤ fuel) :
    read1D p fuel (write1D w cols n edges info) = some (.ok (⟨[n], cols⟩, (sEdges, .edges1 edges) :: infoDict info)) := by
  obtain ⟨k, rfl⟩ := Nat.exists_eq_add_of_le hf
  have hnames := names_tok n cols hok
  have hrun := run1D w cols n edges info (parts_ne cols hcols) hnames hhe hhm hinfo hkeys k
  have hw : ∃ ls, write1D w cols n edges info = ('#' :: words ((cols.flatMap parts).map Prod.fst)) :: ls := ⟨_, rfl⟩
  obtain ⟨ls, hls⟩ := hw
  rw [hls] at hrun ⊢
  rw [read1D]
  have hh : header (F := F) (V := V) ('#' :: words ((cols.flatMap parts).map Prod.fst)) =
      .ok [(sColumns, .names ((cols.flatMap parts).map Prod.fst))] := by
    rw [header, if_pos rfl, splitWs_words _ hnames]
  rw [hh]
  dsimp only
  rw [hrun]
  dsimp only
  have hasm := assemble_flat n cols [] [] hok (by simpa using hnd)
  simp only [List.nil_append, List.length_nil] at hasm
  obtain ⟨m, rfl⟩ : ∃ m, n = m + 1 := ⟨n - 1, by omega⟩
  cases hr : rowsOf (cols.flatMap parts) (m + 1) with
  | nil =>
    have : (rowsOf (cols.flatMap parts) (m + 1)).length = m + 1 := by simp [rowsOf]
    rw [hr] at this
    simp at this
  | cons r rs =>
    have hlen : (r :: rs).length = m + 1 := by rw [← hr]; simp [rowsOf]
    have hall : ∀ q ∈ r :: rs, q.length = (cols.flatMap parts).length := by
      intro q hq
      rw [← hr] at hq
      obtain ⟨i, _, rfl⟩ := List.mem_map.1 hq
      simp [row]
    have h2 : rs.all (fun q => q.length == r.length) = true := by
      rw [List.all_eq_true]
      intro q hq
      simp [hall q (by simp [hq]), hall r (by simp)]
    rw [finish, if_pos h2]
    have hg : get sColumns ((sColumns, MV.names ((cols.flatMap parts).map Prod.fst)) :: (sEdges, MV.edges1 edges) ::
        infoDict info : Dict (MV F V)) = some (.names ((cols.flatMap parts).map Prod.fst)) := by simp [get]
    have hcn : columnNames p r.length ((sColumns, MV.names ((cols.flatMap parts).map Prod.fst)) :: (sEdges, MV.edges1 edges) ::
        infoDict info : Dict (MV F V)) = .ok ((cols.flatMap parts).map Prod.fst) := by
      rw [columnNames, hg]
    simp only [bind, Except.bind, hcn]
    rw [hr] at hasm
    rw [hasm]
    dsimp only
    have hdel : del sColumns ((sColumns, MV.names ((cols.flatMap parts).map Prod.fst)) :: (sEdges, MV.edges1 edges) ::
        infoDict info : Dict (MV F V)) = (sEdges, .edges1 edges) :: infoDict info := by
      have h3 : sColumns ∉ ((sEdges, MV.edges1 edges) :: infoDict info : Dict (MV F V)).map Prod.fst := by
        have := (List.nodup_cons.1 hkeys).1
        simpa [infoDict] using this
      have h4 := del_none _ _ h3
      rw [del, List.filter_cons]
      simp only [ne_eq, not_true_eq_false, decide_false, Bool.false_eq_true, if_false]
      exact h4
    rw [hdel, hlen]

/-- C115, one dimension: `from_plaintext` of a file with `n` bins, `n + 1` edges and any columns and metadata gives the arguments that make the
same object: dimension, edges, columns, and as attributes the metadata with the keywords put over them. -/
theorem from_plaintext_1d_partial [Inhabited F] {p : Prims F V} (w : Printer p) (cols : Dict (Col F)) (n : Nat) (edges : List F)
    (info : List (Info V)) (kwargs : Dict V) (dim : Tok) (hn : 0 < n) (hcols : cols ≠ []) (hok : ∀ q ∈ cols, ColOk n q)
    (hnd : (cols.map Prod.fst).Nodup)
    (hhe : contains sEdges (words ((cols.flatMap parts).map Prod.fst)) = false)
    (hhm : contains sMetadata (words ((cols.flatMap parts).map Prod.fst)) = false)
    (hinfo : ∀ m ∈ info, m.Ok p) (hkeys : (sColumns :: sEdges :: info.map Info.key).Nodup)
    (hres : ∀ m ∈ info, m.key ∉ reserved) (hkw : ∀ q ∈ kwargs, q.1 ∉ reserved)
    (hed : edges.length = n + 1) (fuel : Nat) (hf : n + 3 ≤ fuel) :
    fromPlaintext p fuel true [dim] (write1D w cols n edges info) kwargs =
      some (.ok ⟨[dim], [edges], ⟨[n], cols⟩, none, none, update (infoDict info) (kwargs.map fun q => (q.1, .val q.2))⟩) := by
  have hr := read1D_write w cols n edges info hn hcols hok hnd hhe hhm hinfo hkeys fuel hf
  rw [fromPlaintext, hr]
  simp only [Bool.not_true, Bool.false_eq_true, if_false, List.length_cons, List.length_nil, Nat.zero_add, if_true, Option.map_some,
    wrap, Except.bind]
  rw [build]
  have hg : get sEdges ((sEdges, MV.edges1 edges) :: infoDict info : Dict (MV F V)) = some (.edges1 edges) := by simp [get]
  have hdel : del sEdges ((sEdges, MV.edges1 edges) :: infoDict info : Dict (MV F V)) = infoDict info := by
    have h3 : sEdges ∉ (infoDict info : Dict (MV F V)).map Prod.fst := by
      have := (List.nodup_cons.1 (List.nodup_cons.1 hkeys).2).1
      simpa [infoDict] using this
    have h4 := del_none _ _ h3
    rw [del, List.filter_cons]
    simp only [ne_eq, not_true_eq_false, decide_false, Bool.false_eq_true, if_false]
    exact h4
  dsimp only
  rw [hg]
  dsimp only
  rw [hdel, construct_ok]
  · intro t ht
    rcases update_keys _ _ _ ht with h | h
    · simp only [List.map_map, List.mem_map, Function.comp] at h
      obtain ⟨q, hq, rfl⟩ := h
      exact hkw q hq
    · simp only [infoDict, List.map_map, List.mem_map, Function.comp] at h
      obtain ⟨q, hq, rfl⟩ := h
      exact hres q hq
  · rfl
  · simp [hed]

end NBK.Plain
