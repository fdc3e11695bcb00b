import Verif.Plain.Props

/-!
# C115, two dimensions
-/
set_option linter.unusedSimpArgs false
namespace NBK.Plain
variable {F V : Type}

/-- The lines of a file in two dimensions; `t1` and `t2` stand before the numbers of edges. -/
def write2D [Inhabited F] {p : Prims F V} (w : Printer p) (t1 t2 : Tok) (nk nmu : Nat) (cols : Dict (Col F)) (e1 e2 : List F)
    (info : List (Info V)) : List Line :=
  let flat := cols.flatMap parts
  wordLine [w.cnt nk, w.cnt nmu] :: wordLine (flat.map Prod.fst) ::
    ((rowsOf flat (nk * nmu)).map (fun r => wordLine (r.map w.num)) ++
    (wordLine [t1, w.cnt e1.length] :: e1.map (fun e => wordLine [w.num e]) ++
    (wordLine [t2, w.cnt e2.length] :: e2.map (fun e => wordLine [w.num e]) ++
    (wordLine [sMetadata, w.cnt info.length] :: info.map (fun m => wordLine [m.key, m.value, m.cast])))))

theorem lastInt_line {p : Prims F V} (w : Printer p) (t : Tok) (ht : IsTok t) (n : Nat) :
    lastInt p (wordLine [t, w.cnt n]) = .ok (n : Int) := by
  rw [lastInt, splitWs_wordLine _ (by
    intro x hx
    simp only [List.mem_cons, List.not_mem_nil, or_false] at hx
    rcases hx with rfl | rfl
    · exact ht
    · exact w.cnt_tok n)]
  simp [w.cnt_read]

theorem metaLine_line {p : Prims F V} (m : Info V) (h : m.Ok p) (d : Dict (MV F V)) :
    metaLine p (wordLine [m.key, m.value, m.cast]) d = .ok (put m.key (.val m.v) d) := by
  obtain ⟨hk, hv, hc, h⟩ := h
  rw [metaLine, splitWs_wordLine _ (by
    intro x hx
    simp only [List.mem_cons, List.not_mem_nil, or_false] at hx
    rcases hx with rfl | rfl | rfl
    · exact hk
    · exact hv
    · exact hc)]
  rcases h with ⟨f, h1, h2⟩ | ⟨h0, f, h1, h2⟩
  · simp [h1, h2]
  · simp [h0, h1, h2]

theorem metaLines_write {p : Prims F V} (info : List (Info V)) (h : ∀ m ∈ info, m.Ok p)
    (d : Dict (MV F V)) (hnd : ((d.map Prod.fst) ++ info.map Info.key).Nodup) :
    metaLines p (info.map (fun m => wordLine [m.key, m.value, m.cast])) d = .ok (d ++ infoDict info) := by
  induction info generalizing d with
  | nil => simp [metaLines, infoDict]
  | cons m info ih =>
    have hk : m.key ∉ d.map Prod.fst := by
      intro hm
      rw [List.nodup_append] at hnd
      exact hnd.2.2 m.key hm m.key (by simp) rfl
    have ih := ih (fun x hx => h x (by simp [hx])) (d ++ [(m.key, .val m.v)]) (by simpa using hnd)
    rw [List.map_cons, metaLines, metaLine_line m (h m (by simp))]
    simp only [bind, Except.bind]
    rw [put_new _ _ _ hk, ih]
    simp [infoDict]

/-- Rows of the same length, put one behind the other and cut again. -/
theorem cut_flatten (rows : List (List F)) (d : Nat) (h : ∀ r ∈ rows, r.length = d) :
    ((List.range rows.length).map fun r => (rows.flatten.drop (r * d)).take d) = rows := by
  induction rows with
  | nil => rfl
  | cons r rows ih =>
    have hr := h r (by simp)
    have ih := ih (fun x hx => h x (by simp [hx]))
    rw [List.length_cons, List.range_succ_eq_map, List.map_cons, List.map_map]
    congr 1
    · simp [← hr]
    · rw [← ih]
      simp only [ih]
      conv_rhs => rw [← ih]
      apply List.map_congr_left
      intro a _
      simp only [Function.comp, List.flatten_cons]
      rw [show (a + 1) * d = r.length + a * d from by rw [Nat.add_mul, hr]; omega]
      rw [← List.drop_drop, List.drop_left]

theorem reshape_rows (nk nmu : Nat) (rows : List (List F)) (d : Nat) (hk : 0 < nk) (hm : 0 < nmu) (hl : rows.length = nk * nmu)
    (h : ∀ r ∈ rows, r.length = d) : reshape (nk : Int) (nmu : Int) rows.flatten = .ok rows := by
  have hn : ((nk : Int) * (nmu : Int)).toNat = nk * nmu := by
    rw [← Int.natCast_mul, Int.toNat_natCast]
  have hpos : 0 < nk * nmu := Nat.mul_pos hk hm
  have hfl : rows.flatten.length = nk * nmu * d := by
    rw [List.length_flatten, ← hl]
    clear hl
    induction rows with
    | nil => simp
    | cons r rows ih =>
      simp only [List.map_cons, List.sum_cons, List.length_cons]
      rw [ih (fun x hx => h x (by simp [hx])), h r (by simp), Nat.add_mul]
      omega
  rw [reshape, if_pos ⟨by omega, by omega⟩]
  simp only [hn, hfl, Nat.mul_mod_right, if_true]
  rw [Nat.mul_div_cancel_left d hpos, ← hl]
  congr 1
  exact cut_flatten rows d h

theorem flat_rows {p : Prims F V} (w : Printer p) (rows : List (List F)) :
    ((rows.map (fun r => wordLine (r.map w.num))).flatMap splitWs).mapM (float p) = .ok rows.flatten := by
  have h1 : (rows.map (fun r => wordLine (r.map w.num))).flatMap splitWs = rows.flatten.map w.num := by
    induction rows with
    | nil => rfl
    | cons r rows ih =>
      rw [List.map_cons, List.flatMap_cons, ih, splitWs_wordLine _ (by
        intro t ht
        obtain ⟨y, _, rfl⟩ := List.mem_map.1 ht
        exact w.num_tok y)]
      simp
  rw [h1, mapM_ok_of (float p) w.num id _ (fun a _ => float_num w a)]
  simp

theorem index_mid {α : Type} (a b : List α) (x : α) : index (a ++ x :: b) (a.length : Int) = .ok x :=
  index_nat _ _ _ (by simp)

/-- Reading a file of two dimensions gives the columns, edges and metadata that were written. -/
theorem read2D_write [Inhabited F] {p : Prims F V} (w : Printer p) (t1 t2 : Tok) (h1 : IsTok t1) (h2 : IsTok t2) (nk nmu : Nat)
    (cols : Dict (Col F)) (e1 e2 : List F) (info : List (Info V)) (hk : 0 < nk) (hm : 0 < nmu)
    (hok : ∀ q ∈ cols, ColOk (nk * nmu) q) (hnd : (cols.map Prod.fst).Nodup)
    (hinfo : ∀ m ∈ info, m.Ok p) (hkeys : (sEdges :: info.map Info.key).Nodup) :
    read2D p (write2D w t1 t2 nk nmu cols e1 e2 info) = .ok (⟨[nk, nmu], cols⟩, (sEdges, .edges2 [e1, e2]) :: infoDict info) := by
  have hnames := names_tok _ cols hok
  generalize hrows : rowsOf (cols.flatMap parts) (nk * nmu) = rows
  have hlr : rows.length = nk * nmu := by rw [← hrows]; simp [rowsOf]
  have hrl : ∀ r ∈ rows, r.length = (cols.flatMap parts).length := by
    intro r hr
    rw [← hrows] at hr
    obtain ⟨i, _, rfl⟩ := List.mem_map.1 hr
    simp [row]
  have hasm := assemble_flat (nk * nmu) cols [] [] hok (by simpa using hnd)
  simp only [List.nil_append, List.length_nil, hrows] at hasm
  generalize hA : rows.map (fun r => wordLine (r.map w.num)) = A
  generalize hB1 : e1.map (fun e => wordLine [w.num e]) = B1
  generalize hB2 : e2.map (fun e => wordLine [w.num e]) = B2
  generalize hC : info.map (fun m => wordLine [m.key, m.value, m.cast]) = C
  have hAl : A.length = nk * nmu := by rw [← hA]; simp [hlr]
  have hB1l : B1.length = e1.length := by rw [← hB1]; simp
  have hB2l : B2.length = e2.length := by rw [← hB2]; simp
  have hCl : C.length = info.length := by rw [← hC]; simp
  have hfile : write2D w t1 t2 nk nmu cols e1 e2 info = wordLine [w.cnt nk, w.cnt nmu] :: wordLine ((cols.flatMap parts).map Prod.fst) ::
      (A ++ (wordLine [t1, w.cnt e1.length] :: B1 ++ (wordLine [t2, w.cnt e2.length] :: B2 ++
        (wordLine [sMetadata, w.cnt info.length] :: C)))) := by
    rw [write2D, hrows, hA, hB1, hB2, hC]
  generalize hL : A ++ (wordLine [t1, w.cnt e1.length] :: B1 ++ (wordLine [t2, w.cnt e2.length] :: B2 ++
        (wordLine [sMetadata, w.cnt info.length] :: C))) = L at hfile
  have hn : (nk : Int) * (nmu : Int) = (A.length : Int) := by rw [hAl, Int.natCast_mul]
  have hs : shapeLine p (wordLine [w.cnt nk, w.cnt nmu]) = .ok ((nk : Int), (nmu : Int)) := by
    rw [shapeLine, splitWs_wordLine _ (by
      intro x hx
      simp only [List.mem_cons, List.not_mem_nil, or_false] at hx
      rcases hx with rfl | rfl <;> exact w.cnt_tok _)]
    simp [w.cnt_read]
  have hsl0 : slice L 0 ((nk : Int) * (nmu : Int)) = A := by
    have := slice_mid [] A (wordLine [t1, w.cnt e1.length] :: B1 ++ (wordLine [t2, w.cnt e2.length] :: B2 ++
        (wordLine [sMetadata, w.cnt info.length] :: C)))
    simp only [List.nil_append, List.length_nil, Int.natCast_zero, Int.zero_add, hL] at this
    rw [hn]
    exact this
  have hflat := flat_rows w rows
  rw [hA] at hflat
  have hresh := reshape_rows nk nmu rows _ hk hm hlr hrl
  have hi1 : index L ((nk : Int) * (nmu : Int)) = .ok (wordLine [t1, w.cnt e1.length]) := by
    rw [hn, ← hL]
    exact index_mid _ _ _
  have hsl1 : slice L ((nk : Int) * (nmu : Int) + 1) ((nk : Int) * (nmu : Int) + 1 + (e1.length : Int)) = B1 := by
    have := slice_mid (A ++ [wordLine [t1, w.cnt e1.length]]) B1 (wordLine [t2, w.cnt e2.length] :: B2 ++
        (wordLine [sMetadata, w.cnt info.length] :: C))
    simp only [List.append_assoc, List.cons_append, List.nil_append, List.length_append, List.length_cons, List.length_nil,
      Nat.zero_add, Int.natCast_add, Int.natCast_one] at this hL
    rw [hL, hB1l] at this
    rw [hn]
    exact this
  have hi2 : index L ((nk : Int) * (nmu : Int) + 1 + (e1.length : Int)) = .ok (wordLine [t2, w.cnt e2.length]) := by
    have := index_mid (A ++ [wordLine [t1, w.cnt e1.length]] ++ B1) (B2 ++ (wordLine [sMetadata, w.cnt info.length] :: C))
      (wordLine [t2, w.cnt e2.length])
    simp only [List.append_assoc, List.cons_append, List.nil_append, List.length_append, List.length_cons, List.length_nil,
      Nat.zero_add, Int.natCast_add, Int.natCast_one] at this hL
    rw [hL, hB1l] at this
    rw [hn, ← this]
    congr 1
    omega
  have hsl2 : slice L ((nk : Int) * (nmu : Int) + 1 + (e1.length : Int) + 1)
      ((nk : Int) * (nmu : Int) + 1 + (e1.length : Int) + 1 + (e2.length : Int)) = B2 := by
    have := slice_mid (A ++ [wordLine [t1, w.cnt e1.length]] ++ B1 ++ [wordLine [t2, w.cnt e2.length]]) B2
      (wordLine [sMetadata, w.cnt info.length] :: C)
    simp only [List.append_assoc, List.cons_append, List.nil_append, List.length_append, List.length_cons, List.length_nil,
      Nat.zero_add, Int.natCast_add, Int.natCast_one] at this hL
    rw [hL, hB1l, hB2l] at this
    rw [hn]
    rw [show (A.length : Int) + 1 + e1.length + 1 = A.length + (e1.length + 1 + 1) from by omega]
    exact this
  have hi3 : index L ((nk : Int) * (nmu : Int) + 1 + (e1.length : Int) + 1 + (e2.length : Int)) =
      .ok (wordLine [sMetadata, w.cnt info.length]) := by
    have := index_mid (A ++ [wordLine [t1, w.cnt e1.length]] ++ B1 ++ [wordLine [t2, w.cnt e2.length]] ++ B2) C
      (wordLine [sMetadata, w.cnt info.length])
    simp only [List.append_assoc, List.cons_append, List.nil_append, List.length_append, List.length_cons, List.length_nil,
      Nat.zero_add, Int.natCast_add, Int.natCast_one] at this hL
    rw [hL, hB1l, hB2l] at this
    rw [hn, ← this]
    congr 1
    omega
  have hsl3 : slice L ((nk : Int) * (nmu : Int) + 1 + (e1.length : Int) + 1 + (e2.length : Int) + 1)
      ((nk : Int) * (nmu : Int) + 1 + (e1.length : Int) + 1 + (e2.length : Int) + 1 + (info.length : Int)) = C := by
    have := slice_mid (A ++ [wordLine [t1, w.cnt e1.length]] ++ B1 ++ [wordLine [t2, w.cnt e2.length]] ++ B2 ++
      [wordLine [sMetadata, w.cnt info.length]]) C []
    simp only [List.append_assoc, List.cons_append, List.nil_append, List.length_append, List.length_cons, List.length_nil,
      Nat.zero_add, Int.natCast_add, Int.natCast_one, List.append_nil] at this hL
    rw [hL, hB1l, hB2l, hCl] at this
    rw [hn]
    rw [show (A.length : Int) + 1 + e1.length + 1 + e2.length + 1 = A.length + (e1.length + (e2.length + 1 + 1) + 1) from by omega]
    exact this
  have hlt : (nk : Int) * (nmu : Int) + 1 + (e1.length : Int) + 1 + (e2.length : Int) < (L.length : Int) := by
    rw [hn, ← hL]
    simp [hB1l, hB2l]
    omega
  have hm1 : B1.mapM (float p) = .ok e1 := by
    rw [← hB1, mapM_ok_of (float p) (fun e => wordLine [w.num e]) id e1 (fun a _ => float_line w a)]
    simp
  have hm2 : B2.mapM (float p) = .ok e2 := by
    rw [← hB2, mapM_ok_of (float p) (fun e => wordLine [w.num e]) id e2 (fun a _ => float_line w a)]
    simp
  have hmeta := metaLines_write info hinfo [(sEdges, MV.edges2 [e1, e2])] (by simpa using hkeys)
  rw [hC] at hmeta
  rw [hfile, read2D]
  simp only [List.headD_cons, List.tail_cons, List.drop_succ_cons, List.drop_zero, hs, bind, Except.bind, hsl0, hflat, hresh,
    splitWs_wordLine _ hnames, hasm, hi1, lastInt_line w _ h1, hsl1, hm1, hi2, lastInt_line w _ h2, hsl2, hm2, hlt, if_true, hi3,
    lastInt_line w _ isTok_metadata, hsl3, hmeta, Int.toNat_natCast, List.cons_append, List.nil_append]

/-- C115, two dimensions: `from_plaintext` of a file of `nk` times `nmu` bins gives back the dimensions, edges, columns and metadata. -/
theorem from_plaintext_2d_partial [Inhabited F] {p : Prims F V} (w : Printer p) (t1 t2 : Tok) (h1 : IsTok t1) (h2 : IsTok t2)
    (nk nmu : Nat) (cols : Dict (Col F)) (e1 e2 : List F) (info : List (Info V)) (kwargs : Dict V) (d1 d2 : Tok)
    (hk : 0 < nk) (hm : 0 < nmu) (hok : ∀ q ∈ cols, ColOk (nk * nmu) q) (hnd : (cols.map Prod.fst).Nodup)
    (hinfo : ∀ m ∈ info, m.Ok p) (hkeys : (sEdges :: info.map Info.key).Nodup)
    (hres : ∀ m ∈ info, m.key ∉ reserved) (hkw : ∀ q ∈ kwargs, q.1 ∉ reserved)
    (he1 : e1.length = nk + 1) (he2 : e2.length = nmu + 1) (fuel : Nat) :
    fromPlaintext p fuel true [d1, d2] (write2D w t1 t2 nk nmu cols e1 e2 info) kwargs =
      some (.ok ⟨[d1, d2], [e1, e2], ⟨[nk, nmu], cols⟩, none, none,
        update (infoDict info) (kwargs.map fun q => (q.1, .val q.2))⟩) := by
  have hr := read2D_write w t1 t2 h1 h2 nk nmu cols e1 e2 info hk hm hok hnd hinfo hkeys
  rw [fromPlaintext, hr]
  simp only [Bool.not_true, Bool.false_eq_true, if_false, List.length_cons, List.length_nil, Nat.zero_add, Nat.reduceAdd,
    Nat.reduceEqDiff, if_true, wrap, Except.bind]
  rw [build]
  have hg : get sEdges ((sEdges, MV.edges2 [e1, e2]) :: infoDict info : Dict (MV F V)) = some (.edges2 [e1, e2]) := by simp [get]
  have hdel : del sEdges ((sEdges, MV.edges2 [e1, e2]) :: infoDict info : Dict (MV F V)) = infoDict info := by
    have h3 : sEdges ∉ (infoDict info : Dict (MV F V)).map Prod.fst := by
      have := (List.nodup_cons.1 hkeys).1
      simpa [infoDict] using this
    have h4 := del_none _ _ h3
    rw [del, List.filter_cons]
    simp only [ne_eq, not_true_eq_false, decide_false, Bool.false_eq_true, if_false]
    exact h4
  dsimp only
  rw [hg]
  dsimp only
  rw [hdel, construct_ok]
  · intro t ht
    rcases update_keys _ _ _ ht with h | h
    · simp only [List.map_map, List.mem_map, Function.comp] at h
      obtain ⟨q, hq, rfl⟩ := h
      exact hkw q hq
    · simp only [infoDict, List.map_map, List.mem_map, Function.comp] at h
      obtain ⟨q, hq, rfl⟩ := h
      exact hres q hq
  · rfl
  · simp [he1, he2]

end NBK.Plain
