import Verif.FileCatObj.InvProps

/-! # Catalogs of files: opening, deleting, leaving the file, and cases -/
set_option linter.unusedSimpArgs false
namespace NBK.FileCatObj
open NBK.CatObj

variable {ρ V : Type}

/-- A column of the file that was not replaced holds what the file holds now: the rows of the range of the rank. -/
theorem reads_rows (w : World ρ Range V) (i : Nat) (cols : List (String × Nat)) (o : Obj ρ Range) (hr : Reads w i cols o) (hown : w.own i = some o) (c : String)
    (ho : get c o.over = none) (b : Nat) (hc : get c cols = some b) (l : List ρ) (hl : w.bufs[b]? = some l) (hn : l.length = o.data.n) :
    w.rows i c = .ok ((PySlice.pySlice l ⟨some o.data.lstart, some o.data.lend, none⟩).getD []) := by
  obtain ⟨dflt, hcl⟩ := hr.cls
  unfold World.rows World.read
  rw [hown]
  dsimp only
  unfold Obj.read
  rw [ho, hcl, hard_get, hc]
  simp only [Option.map_some, Except.map]
  unfold Col.eval Col.eval
  rw [hl]
  simp only [Option.getD_some]
  rw [cut_eval o.data l hn]

/-- A column of the file cannot be deleted, also not when it was replaced: after an assignment, what the file holds can only be seen in another catalog. -/
theorem delete_refused (w : World ρ Range V) (i : Nat) (cols : List (String × Nat)) (o : Obj ρ Range) (hr : Reads w i cols o) (hown : w.own i = some o) (c : String) (b : Nat)
    (hc : get c cols = some b) : delCol w i c = .error .valueError := by
  obtain ⟨dflt, hcl⟩ := hr.cls
  unfold delCol
  rw [hown]
  dsimp only
  by_cases h : c ∉ o.columns
  · rw [if_pos h]
  · rw [if_neg h, if_pos]
    rw [hcl, hard_get, hc]
    rfl

theorem get_update (k : String) (d e : List (String × V)) (hn : (e.map Prod.fst).Nodup) : get k (update d e) = (get k e).or (get k d) := by
  unfold update
  rw [get_fold k e d hn]

/-- A catalog of a file as it is made: the rows of the rank, the size, and the attributes: those of the file and those that are given, which win. -/
theorem open_spec (dflt : List (String × ρ)) (r P : Nat) (hr : r < P) (w w' : World ρ Range V) (j : Nat) (f : File V) (attrs : List (String × V))
    (hf : ((f.attrs.getD []).map Prod.fst).Nodup) (ha : (attrs.map Prod.fst).Nodup) (h : openFile dflt r P w f attrs = (w', j)) :
    j = w.objs.length ∧ w'.bufs = w.bufs ∧ (∀ k, k < w.objs.length → w'.objs[k]? = w.objs[k]?) ∧
    (∃ o, Reads w' j f.cols o ∧ o.over = [] ∧ o.data.start = 0 ∧ o.data.n = f.n) ∧
    (∀ c b l, get c f.cols = some b → w.bufs[b]? = some l → l.length = f.n → w'.rows j c = .ok ((l.take ((r + 1) * f.n / P)).drop (r * f.n / P))) ∧
    w'.size j = (r + 1) * f.n / P - r * f.n / P ∧
    (∀ k, get k (w'.attrsOf j) = (get k attrs).or (get k (f.attrs.getD []))) := by
  unfold openFile at h
  dsimp only at h
  have hj : j = w.objs.length := (congrArg Prod.snd h).symm
  have hw' := (congrArg Prod.fst h).symm
  dsimp only at hw'
  subst hj
  have a2 := (add_own_last ({ w with dicts := w.dicts ++ [update (update [] (f.attrs.getD [])) attrs] } : World ρ Range V)
    ⟨fileCls f.cols dflt, ⟨f.n, 0, f.n, bound 0 f.n P r, bound 0 f.n P (r + 1)⟩, (bound 0 f.n P (r + 1) - bound 0 f.n P r).toNat,
      (bound 0 f.n P (r + 1) - bound 0 f.n P r).toNat, [], none, some w.dicts.length⟩ rfl).2
  have a3 := add_last ({ w with dicts := w.dicts ++ [update (update [] (f.attrs.getD [])) attrs] } : World ρ Range V)
    ⟨fileCls f.cols dflt, ⟨f.n, 0, f.n, bound 0 f.n P r, bound 0 f.n P (r + 1)⟩, (bound 0 f.n P (r + 1) - bound 0 f.n P r).toNat,
      (bound 0 f.n P (r + 1) - bound 0 f.n P r).toNat, [], none, some w.dicts.length⟩
  dsimp only at a2 a3
  rw [← hw'] at a2 a3
  have hR : Reads w' w.objs.length f.cols _ := ⟨a3, ⟨dflt, rfl⟩, rfl⟩
  refine ⟨rfl, by rw [hw']; rfl, ?_, ⟨_, hR, rfl, rfl, rfl⟩, ?_, ?_, ?_⟩
  · intro q hq
    rw [hw']
    show (w.objs ++ [_])[q]? = _
    rw [List.getElem?_append_left hq]
  · intro c b l hc hl hn
    rw [reads_rows w' _ f.cols _ hR a2 c rfl b hc l (by rw [hw']; exact hl) hn]
    dsimp only
    have e0 : (0 : Int) = ((0 : Nat) : Int) := rfl
    rw [e0, slice_bounds, Nat.zero_add, Nat.zero_add]
  · unfold World.size
    rw [a2]
    show (bound 0 f.n P (r + 1) - bound 0 f.n P r).toNat = _
    have e0 : (0 : Int) = ((0 : Nat) : Int) := rfl
    rw [e0, bound_nat, bound_nat]
    omega
  · intro k
    unfold World.attrsOf
    rw [a3]
    show get k (((w'.dicts)[w.dicts.length]?).getD []) = _
    rw [hw']
    show get k (((w.dicts ++ [_])[w.dicts.length]?).getD []) = _
    rw [List.getElem?_append_right (Nat.le_refl _), Nat.sub_self]
    show get k (update (update [] (f.attrs.getD [])) attrs) = _
    rw [get_update k _ _ ha, get_update k _ _ hf]
    have : get k ([] : List (String × V)) = none := rfl
    rw [this, Option.or_none]

/-- The ranks have, one after the other, the whole file. -/
theorem open_ranks (dflt : List (String × ρ)) (P : Nat) (hP : 0 < P) (ws ws' : Nat → World ρ Range V) (j : Nat → Nat) (f : File V) (attrs : List (String × V))
    (hf : ((f.attrs.getD []).map Prod.fst).Nodup) (ha : (attrs.map Prod.fst).Nodup) (h : ∀ r < P, openFile dflt r P (ws r) f attrs = (ws' r, j r)) (c : String) (b : Nat)
    (hc : get c f.cols = some b) (l : List ρ) (hl : ∀ r < P, (ws r).bufs[b]? = some l) (hn : l.length = f.n) :
    ∃ parts : Nat → List ρ, (∀ r < P, (ws' r).rows (j r) c = .ok (parts r) ∧ (parts r).length = (ws' r).size (j r)) ∧ ((List.range P).map parts).flatten = l := by
  have hmono : ∀ r : Nat, r * f.n / P ≤ (r + 1) * f.n / P := fun r => Nat.div_le_div_right (Nat.mul_le_mul_right _ (Nat.le_succ r))
  have hle : ∀ r, r < P → (r + 1) * f.n / P ≤ f.n := fun r hr => Nat.div_le_of_le_mul (Nat.mul_le_mul_right _ hr)
  refine ⟨fun r => (l.take ((r + 1) * f.n / P)).drop (r * f.n / P), fun r hr => ?_, ?_⟩
  · obtain ⟨_, _, _, _, h5, h6, _⟩ := open_spec dflt r P hr (ws r) (ws' r) (j r) f attrs hf ha (h r hr)
    refine ⟨h5 c b l hc (hl r hr) hn, ?_⟩
    rw [h6, List.length_drop, List.length_take, hn, Nat.min_eq_left (hle r hr)]
  · have := FileCat.pieces_flatten l (fun r => r * f.n / P) hmono P
    rw [this, Nat.mul_div_cancel_left _ hP, ← hn]
    simp

/-- When the file cannot be opened, only the first rank raises; the others wait for a message that does not come. -/
theorem open_missing (P : Nat) (r : Nat) (hr : r < P) : (opens (V := V) P none)[r]? = some (if r = 0 then Fate.raised else Fate.waits) := by
  unfold opens
  rw [List.getElem?_map, List.getElem?_range hr]
  rfl

/-- A query that leaves the file is accepted: on the ranks that pass the end, the columns are shorter than the size that the catalog says, and then a copy is refused, and the next query
too. -/
theorem query_beyond (r P : Nat) {w w' : World ρ Range V} (i j : Nat) (a s e : Nat) (hse : s ≤ e) (cols : List (String × Nat)) (o : Obj ρ Range) (hr : Reads w i cols o)
    (hs : o.data.start = a) (h : query r P w i s e = .ok (w', j)) (c : String) (b : Nat) (l : List ρ) (hc : get c cols = some b) (hl : w.bufs[b]? = some l) (hn : l.length = o.data.n)
    (hlt : a + s + r * (e - s) / P < a + s + (r + 1) * (e - s) / P) (hout : l.length < a + s + (r + 1) * (e - s) / P) :
    (∃ x, w'.rows j c = .ok x ∧ x.length < w'.size j) ∧ copy w' j = .error .assertionError ∧ ∀ r' P' s' e', query r' P' w' j s' e' = .error .assertionError := by
  have hes : (e : Int) - s = ((e - s : Nat) : Int) := by omega
  have es : (a : Int) + (s : Int) = ((a + s : Nat) : Int) := by push_cast; rfl
  obtain ⟨h1, h2, h3, ⟨o', hR', hd, hov, hcl⟩, h5, _⟩ := query_spec r P w w' i j s e cols o hr h
  have hrow := h5 c b l hc hl hn
  rw [hs, hes, es, slice_bounds] at hrow
  obtain ⟨o2, k, ho2, hname, _, _, hp⟩ := query_shape r P w i s e (w', j) h
  have := ho2.symm.trans hr.obj
  cases this
  have hw' := congrArg Prod.fst hp
  dsimp only at hw'
  have a2 := (add_own_last ({ w with dicts := w.dicts ++ [(w.dicts[k]?).getD []] } : World ρ Range V) (seek r P s e { o with attrs := some w.dicts.length }) rfl).2
  have a3 := add_last ({ w with dicts := w.dicts ++ [(w.dicts[k]?).getD []] } : World ρ Range V) (seek r P s e { o with attrs := some w.dicts.length })
  dsimp only at a2 a3
  rw [← hw', ← h1] at a2 a3
  have hsize : w'.size j = (a + s + (r + 1) * (e - s) / P) - (a + s + r * (e - s) / P) := by
    unfold World.size
    rw [a2]
    show (seek r P s e _).size = _
    unfold seek
    dsimp only
    rw [hs, hes, es, bound_nat, bound_nat]
    omega
  have hlen : ((l.take (a + s + (r + 1) * (e - s) / P)).drop (a + s + r * (e - s) / P)).length < w'.size j := by
    rw [hsize, List.length_drop, List.length_take]
    generalize a + s + (r + 1) * (e - s) / P = x at *
    generalize a + s + r * (e - s) / P = y at *
    omega
  have hcopy : copy w' j = .error .assertionError := by
    obtain ⟨cs, hg⟩ := gather_ok w' j (w'.columns j) fun c hc => (read_iff w' j c).mpr hc
    unfold copy
    rw [a3]
    dsimp only
    rw [hg]
    simp only [Except.bind]
    obtain ⟨g1, g2⟩ := gather_shape w' j _ cs hg
    have hread : ∃ x, w'.read j c = .ok x := by
      unfold World.rows at hrow
      cases hx : w'.read j c with
      | error e => rw [hx] at hrow; cases hrow
      | ok x => exact ⟨x, rfl⟩
    have hmem : c ∈ cs.map Prod.fst := by rw [g1]; exact (read_iff w' j c).mp hread
    obtain ⟨q, hq, rfl⟩ := List.mem_map.mp hmem
    have hset : setAll w'.bufs (w'.size j) (cs.map fun p => (p.1, p.2.1)) = .error .assertionError := by
      unfold setAll
      rw [if_pos]
      rw [List.any_eq_true]
      refine ⟨(q.1, q.2.1), List.mem_map.mpr ⟨q, hq, rfl⟩, ?_⟩
      have hq2 := g2 q hq
      have hev : q.2.1.eval w'.bufs = (l.take (a + s + (r + 1) * (e - s) / P)).drop (a + s + r * (e - s) / P) := by
        unfold World.rows at hrow
        rw [hq2] at hrow
        exact Except.ok.inj hrow
      have hok : q.2.1.Ok w'.bufs := by
        obtain ⟨dflt, hcl'⟩ := hR'.cls
        unfold World.read at hq2
        rw [a2] at hq2
        dsimp only at hq2
        unfold Obj.read seek at hq2
        dsimp only at hq2
        rw [← hcl, hcl', hard_get, hc] at hq2
        have hnil : get q.1 ([] : List (String × Col ρ)) = none := rfl
        rw [hnil] at hq2
        simp only [Option.map_some] at hq2
        have := Except.ok.inj hq2
        rw [← this]
        have hlb : w'.bufs[b]? = some l := by rw [h2]; exact hl
        refine ⟨(List.getElem?_eq_some_iff.mp hlb).1, fun k hk => ?_⟩
        show k < ((w'.bufs[b]?).getD []).length
        rw [hlb]
        simp only [Option.getD_some]
        rw [hn]
        exact cut_lt ⟨o.data.n, s, e, _, _⟩ k hk
      have hl2 : q.2.1.len w'.bufs ≠ w'.size j := by
        rw [← eval_length _ _ hok, hev]
        omega
      simpa using hl2
    rw [hset]
  refine ⟨⟨_, hrow, hlen⟩, hcopy, fun r' P' s' e' => ?_⟩
  unfold query
  rw [a3]
  dsimp only
  rw [if_neg (by simpa [seek] using hname), if_neg (by rintro ⟨x, _⟩; cases x), hcopy]
  rfl

/-! ## Cases -/

def caseEnv : Env Nat := ⟨[("Weight", 1)], ⟨"CatalogSource", [], [("Weight", 1)]⟩⟩

/-- A file of ten rows with the columns 'x' and 'y'. -/
def caseFile : File Nat := ⟨[("x", 0), ("y", 1)], 10, some [("BoxSize", 5), ("seed", 7)]⟩

/-- The file is opened with an attribute, a column is assigned, the catalog is sliced, and the slice is asked for a range. -/
def caseOps : List (Op Nat Nat) :=
  [.cat (.newBuf [0, 1, 2, 3, 4, 5, 6, 7, 8, 9]), .cat (.newBuf [10, 11, 12, 13, 14, 15, 16, 17, 18, 19]), .openFile caseFile [("seed", 8)], .cat (.set 0 "z" (.scalar 3)),
    .cat (.slice 0 (.ints [0])), .query 1 2 8, .query 2 1 3, .query 3 1 5, .cat (.poke 0 [90, 91, 92, 93, 94, 95, 96, 97, 98, 99]), .cat (.view 0 none), .query 4 0 4]

/-- On rank 0 of 2: the slice has the row 0, and its query has the rows 2 to 5 of the file, without the assigned column. The query of a query starts at `2 + 1`; the next one should start at `4`, but it starts at
`1 + 1`. -/
theorem case_program :
    let w := run caseEnv 0 2 ⟨[], [], []⟩ caseOps
    w.objs.length = 7 ∧ w.rows 1 "y" = .ok [10] ∧ w.rows 1 "z" = .ok [3] ∧ w.rows 2 "y" = .ok [12, 13, 14] ∧ w.rows 2 "z" = .error .keyError ∧ w.rows 2 "x" = .ok [92, 93, 94] ∧
      w.rows 3 "y" = .ok [13] ∧ w.rows 4 "y" = .ok [12, 13] ∧ w.attrsOf 0 = [("BoxSize", 5), ("seed", 8)] ∧ w.attrsOf 4 = [("BoxSize", 5), ("seed", 8)] ∧
      (query 0 2 w 5 0 4).map Prod.snd = .error .valueError ∧ (query 0 2 w 0 0 30).map Prod.snd = .ok 7 := by
  refine ⟨?_, ?_, ?_, ?_, ?_, ?_, ?_, ?_, ?_, ?_, ?_, ?_⟩ <;> decide +kernel

/-- The operations of the case meet the conditions of the theorems. -/
theorem case_tame : TameRun caseEnv 0 2 ⟨[], [], []⟩ caseOps := by
  have hcat : ∀ (w : World Nat Range Nat) (op : CatObj.Op Nat Range Nat), (match op with | .new _ _ _ => False | .view _ (some _) => False | _ => True) → Tame w (.cat op) := by
    intro w op h
    refine ⟨?_, ?_, ?_⟩
    · cases op with
      | new _ _ _ => exact h.elim
      | view i ty =>
        cases ty with
        | none => trivial
        | some _ => exact h.elim
      | _ => trivial
    · rintro cls d n rfl
      exact h.elim
    · rintro i cls rfl
      exact h.elim
  have hq : ∀ (w : World Nat Range Nat) (i : Nat) (s e : Int), ((w.objs[i]?).all fun o => decide (0 ≤ o.data.start + s ∧ s ≤ e ∧ o.data.start + e ≤ o.data.n)) = true → Tame w (.query i s e) := by
    intro w i s e h o ho
    rw [ho] at h
    simpa using h
  unfold caseOps
  refine ⟨hcat _ _ trivial, hcat _ _ trivial, ?_, hcat _ _ trivial, hcat _ _ trivial, hq _ _ _ _ ?_, hq _ _ _ _ ?_, hq _ _ _ _ ?_, hcat _ _ trivial, hcat _ _ trivial, hq _ _ _ _ ?_, trivial⟩
  · intro c b h
    have h' : get c [("x", 0), ("y", 1)] = some b := h
    rw [get_cons, get_cons] at h'
    split at h'
    · cases h'
      exact ⟨[0, 1, 2, 3, 4, 5, 6, 7, 8, 9], rfl, rfl⟩
    · split at h'
      · cases h'
        exact ⟨[10, 11, 12, 13, 14, 15, 16, 17, 18, 19], rfl, rfl⟩
      · cases h'
  · decide +kernel
  · decide +kernel
  · decide +kernel
  · decide +kernel

/-- The other rank of the same program: the queries have the other rows. -/
theorem case_rank :
    let w := run caseEnv 1 2 ⟨[], [], []⟩ caseOps
    w.objs.length = 7 ∧ w.rows 0 "y" = .ok [15, 16, 17, 18, 19] ∧ w.rows 1 "y" = .ok [15] ∧ w.rows 2 "y" = .ok [15, 16, 17] ∧ w.rows 3 "y" = .ok [14] ∧ w.rows 2 "Weight" = .ok [1, 1, 1] := by
  refine ⟨?_, ?_, ?_, ?_, ?_, ?_⟩ <;> decide +kernel

/-- The third query of a chain has other rows than the ones that are asked for. -/
theorem chain_wrong : let w := run (V := Nat) caseEnv 0 1 ⟨[], [], []⟩ [.cat (.newBuf [0, 1, 2, 3, 4, 5, 6, 7, 8, 9]), .openFile ⟨[("x", 0)], 10, none⟩ [], .query 0 4 10, .query 1 2 6, .query 2 1 3]
    w.rows 1 "x" = .ok [4, 5, 6, 7, 8, 9] ∧ w.rows 2 "x" = .ok [6, 7, 8, 9] ∧ w.rows 3 "x" = .ok [3, 4] ∧ w.rows 3 "x" ≠ .ok (([6, 7, 8, 9].take 3).drop 1) := by
  refine ⟨?_, ?_, ?_, ?_⟩ <;> decide +kernel

end NBK.FileCatObj
