import Verif.Json.Lemmas

set_option linter.unusedSimpArgs false

/-! C51: decoding what was encoded gives the value back. -/
namespace NBK.Json

/-- Neither infinite nor NaN. -/
def Fl.finite : Fl → Prop
  | .num _ => True
  | _ => False

/-- The item of an array can be stored with this dtype and has an encoding (bytes have none, and complex numbers need a
finite imaginary part). -/
def fits (dt : String) : Sc → Prop
  | .bool _ => kind dt = some .bool
  | .int _ => kind dt = some .int
  | .flt _ => kind dt = some .flt
  | .cplx _ im => kind dt = some .cplx ∧ im.finite
  | .str _ => kind dt = some .str
  | .bytes _ => False

/-- The plain dtype of a field. -/
def Field.base (f : Field) : String :=
  match f.ty with
  | .base s => s
  | .nested _ => ""

/-- A field with a name, a plain dtype and a subarray without empty dimensions. -/
def Field.ok (f : Field) : Prop :=
  f.name ≠ "" ∧ f.ty = .base f.base ∧ (kind f.base).isSome ∧ ∀ n ∈ f.sub.getD [], n ≠ 0

/-- The values of a row belong to the fields. -/
def rowOk (fs : List Field) (row : List (List Sc)) : Prop :=
  row.length = fs.length ∧
  ∀ p ∈ fs.zip row, p.2.length = size (p.1.sub.getD []) ∧ ∀ x ∈ p.2, fits p.1.base x

/-- The keys with a meaning for the decoder. -/
def reserved (k : String) : Prop :=
  k = "__dtype__" ∨ k = "__unit__" ∨ k = "__cosmo__" ∨ k = "__complex__"

/-- The value of a quantity: a float or an array of floats or complex numbers. -/
def isQuant : V → Prop
  | .flt _ => True
  | .npflt _ _ => True
  | .arr dt _ _ => kind dt = some .flt ∨ kind dt = some .cplx
  | _ => False

mutual
/-- The values of the theorem: numbers, strings, lists, tuples, dictionaries without reserved keys, arrays, structured
arrays, quantities and cosmologies, nested without limit. -/
def WF : V → Prop
  | .cplx _ im => im.finite
  | .list l => WFL l
  | .tup l => WFL l
  | .dict d => WFD d
  | .arr dt shape data => (kind dt).isSome ∧ data.length = size shape ∧ ∀ x ∈ data, fits dt x
  | .sarr fs shape rows => (∀ f ∈ fs, f.ok) ∧ rows.length = size shape ∧ ∀ r ∈ rows, rowOk fs r
  | .quant v _ => isQuant v ∧ WF v
  | .cosmo p => WFD p
  | _ => True
def WFL : List V → Prop
  | [] => True
  | v :: l => WF v ∧ WFL l
def WFD : List (String × V) → Prop
  | [] => True
  | (k, v) :: l => ¬ reserved k ∧ WF v ∧ WFD l
end

mutual
/-- What is lost: tuples become lists, numpy scalars Python numbers, and shapes end at the first empty dimension. -/
def norm : V → V
  | .list l => .list (normL l)
  | .tup l => .list (normL l)
  | .dict d => .dict (normD d)
  | .npint _ i => .int i
  | .npflt _ x => .flt x
  | .arr dt shape data => .arr dt (trunc shape) data
  | .sarr fs shape rows => .sarr fs (trunc shape) rows
  | .quant v u => .quant (norm v) u
  | .cosmo p => .cosmo (normD p)
  | v => v
def normL : List V → List V
  | [] => []
  | v :: l => norm v :: normL l
def normD : List (String × V) → List (String × V)
  | [] => []
  | (k, v) :: l => (k, norm v) :: normD l
end

/-- The JSON value of an item. -/
def scJ : Sc → J
  | .bool b => .bool b
  | .int i => .int i
  | .flt x => .flt x
  | .str s => .str s
  | .cplx re im => .obj [("__complex__", .arr [.flt re, .flt im])]
  | .bytes _ => .null

/-- The Python value of an item. -/
def scV : Sc → V
  | .bool b => .bool b
  | .int i => .int i
  | .flt x => .flt x
  | .str s => .str s
  | .cplx re im => .cplx re im
  | .bytes _ => .none

theorem encSc_eq (dt : String) (x : Sc) (h : fits dt x) : encSc x = .ok (scJ x) := by
  cases x <;> first | rfl | exact absurd h id

theorem add_zeroMul (re im : Fl) (h : im.finite) : re.add im.zeroMul = re := by
  cases im <;> first | exact absurd h id | skip
  cases re <;> simp [Fl.add, Fl.zeroMul]

theorem dec_cplx (re im : Fl) (h : im.finite) :
    dec (.obj [("__complex__", .arr [.flt re, .flt im])]) = .ok (.cplx re im) := by
  have : dec (.obj [("__complex__", .arr [.flt re, .flt im])]) = .ok (mkCplx re im) := rfl
  rw [this, mkCplx, add_zeroMul re im h]

theorem dec_scJ (dt : String) (x : Sc) (h : fits dt x) : dec (scJ x) = .ok (scV x) := by
  cases x <;> first | rfl | exact absurd h id | exact dec_cplx _ _ h.2

theorem cast_scV (dt : String) (x : Sc) (h : fits dt x) : cast dt (scV x) = .ok x := by
  cases x
  case cplx re im => unfold cast; rw [h.1]; rfl
  case bytes => exact absurd h id
  all_goals
    have h' : kind dt = _ := h
    unfold cast; rw [h']; rfl

theorem leaf_scV (x : Sc) : leaf (scV x) := by cases x <;> exact trivial

theorem casts (dt : String) (data : List Sc) (h : ∀ x ∈ data, fits dt x) :
    (data.map scV).mapM (cast dt) = .ok data := by
  rw [List.mapM_map, mapM_of (f := cast dt ∘ scV) (g := id) fun x hx => cast_scV dt x (h x hx), List.map_id]

/-- C51: the plain types that are covered: booleans, signed and unsigned integers, floats and complex numbers in both byte
orders, and unicode strings. -/
theorem kinds (rest : List Char) (c : Char) (hc : c = '<' ∨ c = '>') :
    kind (String.ofList ('|' :: 'b' :: rest)) = some .bool ∧
    kind (String.ofList ('|' :: 'i' :: rest)) = some .int ∧ kind (String.ofList ('|' :: 'u' :: rest)) = some .int ∧
    kind (String.ofList (c :: 'i' :: rest)) = some .int ∧ kind (String.ofList (c :: 'u' :: rest)) = some .int ∧
    kind (String.ofList (c :: 'f' :: rest)) = some .flt ∧ kind (String.ofList (c :: 'c' :: rest)) = some .cplx ∧
    kind (String.ofList (c :: 'U' :: rest)) = some .str := by
  rcases hc with rfl | rfl <;> simp [kind]

theorem mkArr_eq (dt : String) (shape : List Nat) (data : List Sc) (hk : (kind dt).isSome)
    (hl : data.length = size shape) (h : ∀ x ∈ data, fits dt x) :
    mkArr dt (nestV shape (data.map scV)) = .ok (.arr dt (trunc shape) data) := by
  unfold mkArr
  have hleaf : ∀ v ∈ data.map scV, leaf v := by
    intro v hv
    obtain ⟨x, _, rfl⟩ := List.mem_map.mp hv
    exact leaf_scV x
  have hl' : (data.map scV).length = size shape := by simpa using hl
  cases hk' : kind dt with
  | none => simp [hk'] at hk
  | some k =>
    simp only
    rw [shapeOf_nest shape _ hl' hleaf, itemsOf_nest shape _ hl' hleaf]
    simp only [bind, Except.bind, pure, Except.pure]
    rw [casts dt data h]

theorem encArr_eq (dt : String) (shape : List Nat) (data : List Sc) (h : ∀ x ∈ data, fits dt x) :
    encArr dt shape data = .ok [("__dtype__", .str dt), ("__shape__", encShape shape),
      ("__data__", nest shape (data.map scJ))] := by
  unfold encArr
  rw [mapM_of fun x hx => encSc_eq dt x (h x hx)]
  rfl

/-- The decoded shape. -/
def shapeV (shape : List Nat) : V := .list (shape.map fun (n : Nat) => .int n)

theorem dec_shape (shape : List Nat) : dec (encShape shape) = .ok (shapeV shape) := by
  unfold encShape shapeV
  rw [dec, decL_map (g := fun n : Nat => V.int n) fun _ _ => rfl]
  rfl

theorem hookArr_eq (u : List (String × V)) (hu : u.lookup "__dtype__" = none ∧ u.lookup "__shape__" = none ∧
    u.lookup "__data__" = none) (dt : String) (shape : List Nat) (data : List Sc) (hk : (kind dt).isSome)
    (hl : data.length = size shape) (h : ∀ x ∈ data, fits dt x) :
    hookArr (u ++ [("__dtype__", .str dt), ("__shape__", shapeV shape), ("__data__", nestV shape (data.map scV))]) =
      .ok (.arr dt (trunc shape) data) := by
  have e1 : get (u ++ [("__dtype__", .str dt), ("__shape__", shapeV shape),
      ("__data__", nestV shape (data.map scV))]) "__shape__" = .ok (shapeV shape) := by
    unfold get; rw [List.lookup_append, hu.2.1]; rfl
  have e2 : get (u ++ [("__dtype__", .str dt), ("__shape__", shapeV shape),
      ("__data__", nestV shape (data.map scV))]) "__data__" = .ok (nestV shape (data.map scV)) := by
    unfold get; rw [List.lookup_append, hu.2.2]; rfl
  have e3 : (u ++ [("__dtype__", .str dt), ("__shape__", shapeV shape),
      ("__data__", nestV shape (data.map scV))]).lookup "__dtype__" = some (.str dt) := by
    rw [List.lookup_append, hu.1]; rfl
  unfold hookArr
  rw [e1, e2, e3]
  simp only [bind, Except.bind, shapeV, lenOf]
  exact mkArr_eq dt shape data hk hl h

theorem dec_arr (dt : String) (shape : List Nat) (data : List Sc) (hk : (kind dt).isSome)
    (hl : data.length = size shape) (h : ∀ x ∈ data, fits dt x) :
    dec (.obj [("__dtype__", .str dt), ("__shape__", encShape shape), ("__data__", nest shape (data.map scJ))]) =
      .ok (.arr dt (trunc shape) data) := by
  have hd := dec_nest scJ scV shape data hl fun x hx => dec_scJ dt x (h x hx)
  have ha := hookArr_eq [] ⟨rfl, rfl, rfl⟩ dt shape data hk hl h
  rw [List.nil_append] at ha
  rw [dec, decD, decD, decD, decD, dec_shape, hd, dec]
  simp only [bind, Except.bind, pure, Except.pure]
  unfold hook hookUnit
  rw [ha]
  rfl

theorem dec_quant_arr (dt : String) (shape : List Nat) (data : List Sc) (u : String)
    (hq : kind dt = some .flt ∨ kind dt = some .cplx) (hk : (kind dt).isSome)
    (hl : data.length = size shape) (h : ∀ x ∈ data, fits dt x) :
    dec (.obj [("__unit__", .str u), ("__dtype__", .str dt), ("__shape__", encShape shape),
      ("__data__", nest shape (data.map scJ))]) = .ok (.quant (.arr dt (trunc shape) data) u) := by
  have hd := dec_nest scJ scV shape data hl fun x hx => dec_scJ dt x (h x hx)
  have ha := hookArr_eq [("__unit__", .str u)] ⟨rfl, rfl, rfl⟩ dt shape data hk hl h
  rw [List.cons_append, List.nil_append] at ha
  rw [dec, decD, decD, decD, decD, decD, dec_shape, hd, dec, dec]
  simp only [bind, Except.bind, pure, Except.pure]
  unfold hook hookUnit
  rw [ha]
  have e : mkQuant (.arr dt (trunc shape) data) u = .ok (.quant (.arr dt (trunc shape) data) u) := by
    simp only [mkQuant, if_pos hq]
  have e2 : List.lookup "__unit__" [("__unit__", V.str u), ("__dtype__", V.str dt), ("__shape__", shapeV shape),
      ("__data__", nestV shape (data.map scV))] = some (.str u) := rfl
  rw [e2]
  have e3 : (List.lookup "__dtype__" [("__unit__", V.str u), ("__dtype__", V.str dt), ("__shape__", shapeV shape),
      ("__data__", nestV shape (data.map scV))]).isSome = true := rfl
  rw [if_pos e3]
  simp only [bind, Except.bind, pure, Except.pure, orData, e]
  rfl

/-- A quantity stored under `__data__`. -/
theorem dec_quant (j : J) (v : V) (u : String) (w : V) (hj : dec j = .ok v) (hw : mkQuant v u = .ok w) :
    dec (.obj [("__unit__", .str u), ("__data__", j)]) = .ok w := by
  rw [dec, decD, decD, decD, hj, dec]
  simp only [bind, Except.bind, pure, Except.pure]
  unfold hook hookUnit
  have e2 : List.lookup "__unit__" [("__unit__", V.str u), ("__data__", v)] = some (.str u) := rfl
  have e3 : (List.lookup "__dtype__" [("__unit__", V.str u), ("__data__", v)]).isSome = false := rfl
  have e4 : orData [("__unit__", V.str u), ("__data__", v)] Option.none = .ok v := rfl
  rw [e2, e3]
  simp only [bind, Except.bind, pure, Except.pure, Bool.false_eq_true, if_false, e4, hw]
  rfl

/-! ### Structured arrays -/

/-- The JSON row. -/
def rowJ (fs : List Field) (row : List (List Sc)) : List J :=
  (fs.zip row).map fun p => nest (p.1.sub.getD []) (p.2.map scJ)

/-- The decoded row. -/
def rowV (fs : List Field) (row : List (List Sc)) : List V :=
  (fs.zip row).map fun p => nestV (p.1.sub.getD []) (p.2.map scV)

theorem encRow_eq (fs : List Field) (hf : ∀ f ∈ fs, f.ok) (row : List (List Sc)) (h : rowOk fs row) :
    encRow fs row = .ok (.arr (rowJ fs row)) := by
  unfold encRow
  rw [List.filter_eq_self.mpr fun f hf' => by simpa using (hf f hf').1]
  rw [mapM_of (g := fun p => nest (p.1.sub.getD []) (p.2.map scJ))]
  · rfl
  · intro p hp
    rw [mapM_of fun x hx => encSc_eq p.1.base x ((h.2 p hp).2 x hx)]
    rfl

theorem dec_row (fs : List Field) (row : List (List Sc)) (h : rowOk fs row) :
    dec (.arr (rowJ fs row)) = .ok (.list (rowV fs row)) := by
  unfold rowJ rowV
  rw [dec, decL_map (g := fun p => nestV (p.1.sub.getD []) (p.2.map scV))]
  · rfl
  · intro p hp
    exact dec_nest scJ scV _ p.2 (h.2 p hp).1 fun x hx => dec_scJ p.1.base x ((h.2 p hp).2 x hx)

/-- A field after `fixdtype`. -/
def tri (f : Field) : String × String × Option (List Nat) := (f.name, f.base, f.sub)

theorem mkRow_eq (fs : List Field) (hf : ∀ f ∈ fs, f.ok) (row : List (List Sc)) (h : rowOk fs row) :
    mkRow (fs.map tri) (.tup (rowV fs row)) = .ok row := by
  unfold mkRow
  have hlen : (rowV fs row).length = (fs.map tri).length := by
    simp [rowV, h.1]
  simp only [if_pos hlen]
  have e : (fs.map tri).zip (rowV fs row) = (fs.zip row).map fun p =>
      (tri p.1, nestV (p.1.sub.getD []) (p.2.map scV)) := by
    unfold rowV
    apply List.ext_getElem
    · simp
    · intro i _ _; simp
  rw [e, List.mapM_map, mapM_of (g := Prod.snd)]
  · rw [List.map_snd_zip (by rw [h.1])]
  · intro p hp
    simp only [Function.comp_def, tri]
    have hleaf : ∀ v ∈ p.2.map scV, leaf v := by
      intro v hv
      obtain ⟨x, _, rfl⟩ := List.mem_map.mp hv
      exact leaf_scV x
    have ht := trunc_eq (p.1.sub.getD []) (hf p.1 (List.of_mem_zip hp).1).2.2.2
    have := itemsOf_nest (p.1.sub.getD []) (p.2.map scV) (by simpa using (h.2 p hp).1) hleaf
    rw [ht] at this
    rw [this]
    exact casts p.1.base p.2 (h.2 p hp).2

theorem mkFields_aux (fs : List Field) (hf : ∀ f ∈ fs, f.ok) (k : Nat) :
    ((fs.map tri).zipIdx k).mapM (fun p =>
      match kind p.1.2.1 with
      | .none => Except.error Err.typeError
      | some _ => .ok (⟨if p.1.1 = "" then "f" ++ toString p.2 else p.1.1, .base p.1.2.1, p.1.2.2⟩ : Field)) =
      .ok fs := by
  induction fs generalizing k with
  | nil => rfl
  | cons f fs ih =>
    obtain ⟨h1, h2, h3, _⟩ := hf f (by simp)
    rw [List.map_cons, List.zipIdx_cons, List.mapM_cons, ih (fun g hg => hf g (by simp [hg]))]
    simp only [tri]
    cases hk : kind f.base with
    | none => simp [hk] at h3
    | some k =>
      simp only [bind, Except.bind, pure, Except.pure]
      rw [← h2]
      show Except.ok ((⟨if f.name = "" then _ else f.name, f.ty, f.sub⟩ : Field) :: fs) = _
      rw [if_neg h1]

theorem mkFields_eq (fs : List Field) (hf : ∀ f ∈ fs, f.ok) : mkFields (fs.map tri) = .ok fs :=
  mkFields_aux fs hf 0

/-- A field as read by the decoder. -/
def fieldV (f : Field) : V :=
  match f.sub with
  | .none => .list [.str f.name, .str f.base]
  | some sh => .list [.str f.name, .str f.base, shapeV sh]

theorem dec_field (f : Field) (hf : f.ok) : dec (encField f) = .ok (fieldV f) := by
  unfold encField fieldV
  rw [hf.2.1]
  cases f.sub with
  | none => rfl
  | some sh =>
    have := dec_shape sh
    unfold encShape at this
    simp only
    rw [dec, decL, decL, decL, decL, this]
    rfl

theorem decShape_eq (sh : List Nat) : decShape (shapeV sh) = .ok sh := by
  unfold shapeV decShape
  show (sh.map fun (n : Nat) => V.int n).mapM decDim = .ok sh
  rw [List.mapM_map, mapM_of (f := decDim ∘ fun (n : Nat) => V.int n) (g := id) fun _ _ => rfl, List.map_id]

theorem fixdtype_eq (fs : List Field) : fixdtype (fs.map fieldV) = .ok (fs.map tri) := by
  induction fs with
  | nil => rfl
  | cons f fs ih =>
    rw [List.map_cons]
    cases hs : f.sub with
    | none =>
      have : fieldV f = .list [.str f.name, .str f.base] := by unfold fieldV; rw [hs]
      rw [this, fixdtype, ih]
      simp [bind, Except.bind, pure, Except.pure, tri, hs, pyStr]
    | some sh =>
      have : fieldV f = .list [.str f.name, .str f.base, shapeV sh] := by unfold fieldV; rw [hs]
      rw [this, fixdtype, ih, decShape_eq]
      simp [bind, Except.bind, pure, Except.pure, tri, hs, pyStr]

theorem dec_sarr (fs : List Field) (hf : ∀ f ∈ fs, f.ok) (shape : List Nat) (rows : List (List (List Sc)))
    (hl : rows.length = size shape) (h : ∀ r ∈ rows, rowOk fs r) :
    dec (.obj [("__dtype__", .arr (fs.map encField)), ("__shape__", encShape shape),
      ("__data__", nest shape (rows.map fun r => .arr (rowJ fs r)))]) = .ok (.sarr fs (trunc shape) rows) := by
  have hd := dec_nest (fun r => .arr (rowJ fs r)) (fun r => .list (rowV fs r)) shape rows hl
    fun r hr => dec_row fs r (h r hr)
  have hdt : dec (.arr (fs.map encField)) = .ok (.list (fs.map fieldV)) := by
    rw [dec, decL_map fun f hf' => dec_field f (hf f hf')]
    rfl
  rw [dec, decD, decD, decD, decD, dec_shape, hd, hdt]
  simp only [bind, Except.bind, pure, Except.pure]
  have hfix : fixdata (fs.map tri).length shape.length (nestV shape (rows.map fun r => V.list (rowV fs r))) =
      .ok (nestV shape (rows.map fun r => V.tup (rowV fs r))) := by
    apply fixdata_nest _ _ _ _ _ hl
    intro r hr
    have : (rowV fs r).length = (fs.map tri).length := by
      have := (h r hr).1
      simp [rowV, this]
    simp only [fixdata, if_pos this]
  have hleaf : ∀ v ∈ rows.map (fun r => V.tup (rowV fs r)), leaf v := by
    intro v hv
    obtain ⟨r, _, rfl⟩ := List.mem_map.mp hv
    exact trivial
  have hl' : (rows.map fun r => V.tup (rowV fs r)).length = size shape := by simpa using hl
  have hrec : mkRec (fs.map tri) (nestV shape (rows.map fun r => V.tup (rowV fs r))) =
      .ok (.sarr fs (trunc shape) rows) := by
    unfold mkRec
    rw [mkFields_eq fs hf, shapeOf_nest shape _ hl' hleaf, itemsOf_nest shape _ hl' hleaf]
    simp only [bind, Except.bind, pure, Except.pure]
    rw [List.mapM_map, mapM_of (f := mkRow (fs.map tri) ∘ fun r => V.tup (rowV fs r)) (g := id)
      fun r hr => mkRow_eq fs hf r (h r hr), List.map_id]
  have harr : hookArr [("__dtype__", .list (fs.map fieldV)), ("__shape__", shapeV shape),
      ("__data__", nestV shape (rows.map fun r => V.list (rowV fs r)))] = .ok (.sarr fs (trunc shape) rows) := by
    unfold hookArr
    have e1 : get [("__dtype__", .list (fs.map fieldV)), ("__shape__", shapeV shape),
      ("__data__", nestV shape (rows.map fun r => V.list (rowV fs r)))] "__shape__" = .ok (shapeV shape) := rfl
    have e2 : get [("__dtype__", .list (fs.map fieldV)), ("__shape__", shapeV shape),
      ("__data__", nestV shape (rows.map fun r => V.list (rowV fs r)))] "__data__" =
      .ok (nestV shape (rows.map fun r => V.list (rowV fs r))) := rfl
    have e3 : List.lookup "__dtype__" [("__dtype__", .list (fs.map fieldV)), ("__shape__", shapeV shape),
      ("__data__", nestV shape (rows.map fun r => V.list (rowV fs r)))] = some (.list (fs.map fieldV)) := rfl
    have e4 : lenOf (shapeV shape) = .ok shape.length := by simp [lenOf, shapeV]
    rw [e1, e2, e3]
    simp only [bind, Except.bind, e4]
    rw [fixdtype_eq]
    simp only [hfix, hrec]
  unfold hook hookUnit
  rw [harr]
  rfl

/-! ### The theorem -/

theorem lookup_normD (k : String) (hk : reserved k) (d : List (String × V)) (h : WFD d) :
    (normD d).lookup k = none := by
  induction d with
  | nil => rfl
  | cons p d ih =>
    obtain ⟨k', v⟩ := p
    rw [WFD] at h
    rw [normD, List.lookup_cons]
    have : (k == k') = false := by
      rw [beq_eq_false_iff_ne]
      rintro rfl
      exact h.1 hk
    rw [this]
    exact ih h.2.2

theorem hook_plain (d : List (String × V)) (h : WFD d) : hook (normD d) = .ok (.dict (normD d)) := by
  have h1 := lookup_normD "__dtype__" (by simp [reserved]) d h
  have h2 := lookup_normD "__unit__" (by simp [reserved]) d h
  have h3 := lookup_normD "__cosmo__" (by simp [reserved]) d h
  have h4 := lookup_normD "__complex__" (by simp [reserved]) d h
  unfold hook hookUnit
  rw [h1, h2, h3, h4]
  rfl

mutual
theorem roundtrip_aux : ∀ v : V, WF v → ∃ j, enc v = .ok j ∧ dec j = .ok (norm v)
  | .none, _ => ⟨_, rfl, rfl⟩
  | .bool _, _ => ⟨_, rfl, rfl⟩
  | .int _, _ => ⟨_, rfl, rfl⟩
  | .flt _, _ => ⟨_, rfl, rfl⟩
  | .str _, _ => ⟨_, rfl, rfl⟩
  | .npint _ _, _ => ⟨_, rfl, rfl⟩
  | .npflt _ _, _ => ⟨_, rfl, rfl⟩
  | .cplx re im, h => by
    rw [WF] at h
    exact ⟨_, rfl, by rw [dec_cplx re im h]; simp [norm]⟩
  | .list l, h => by
    rw [WF] at h
    obtain ⟨js, h1, h2⟩ := roundtripL l h
    exact ⟨.arr js, by rw [enc, h1]; rfl, by rw [dec, h2, norm]; rfl⟩
  | .tup l, h => by
    rw [WF] at h
    obtain ⟨js, h1, h2⟩ := roundtripL l h
    exact ⟨.arr js, by rw [enc, h1]; rfl, by rw [dec, h2, norm]; rfl⟩
  | .dict d, h => by
    rw [WF] at h
    obtain ⟨js, h1, h2⟩ := roundtripD d h
    refine ⟨.obj js, by rw [enc, h1]; rfl, ?_⟩
    rw [dec, h2, norm]
    exact hook_plain d h
  | .arr dt shape data, h => by
    rw [WF] at h
    refine ⟨_, by rw [enc, encArr_eq dt shape data h.2.2]; rfl, ?_⟩
    rw [dec_arr dt shape data h.1 h.2.1 h.2.2, norm]
  | .sarr fs shape rows, h => by
    rw [WF] at h
    have e : encRec fs shape rows = .ok [("__dtype__", .arr (fs.map encField)), ("__shape__", encShape shape),
        ("__data__", nest shape (rows.map fun r => .arr (rowJ fs r)))] := by
      unfold encRec
      rw [mapM_of fun r hr => encRow_eq fs h.1 r (h.2.2 r hr)]
      rfl
    refine ⟨_, by rw [enc, e]; rfl, ?_⟩
    rw [dec_sarr fs h.1 shape rows h.2.1 h.2.2, norm]
  | .cosmo p, h => by
    rw [WF] at h
    obtain ⟨js, h1, h2⟩ := roundtripD p h
    refine ⟨.obj [("__cosmo__", .obj js)], by rw [enc, h1]; rfl, ?_⟩
    have : dec (.obj js) = .ok (.dict (normD p)) := by
      rw [dec, h2]
      exact hook_plain p h
    rw [dec, decD, decD, this, norm]
    rfl
  | .quant v u, h => by
    rw [WF] at h
    obtain ⟨j, h1, h2⟩ := roundtrip_aux v h.2
    refine ⟨quantObj v u j, by rw [enc, h1]; rfl, ?_⟩
    cases v with
    | flt x =>
      obtain rfl : J.flt x = j := by rw [enc] at h1; exact Except.ok.inj h1
      exact dec_quant _ _ u _ h2 rfl
    | npflt dt x =>
      obtain rfl : J.flt x = j := by rw [enc] at h1; exact Except.ok.inj h1
      exact dec_quant _ _ u _ h2 rfl
    | arr dt shape data =>
      have hw := h.2
      have hq : kind dt = some .flt ∨ kind dt = some .cplx := h.1
      rw [WF] at hw
      rw [enc, encArr_eq dt shape data hw.2.2] at h1
      obtain rfl := Except.ok.inj h1
      unfold quantObj
      simp only
      by_cases hs : size shape > 1
      · rw [if_pos hs, dec_quant_arr dt shape data u hq hw.1 hw.2.1 hw.2.2, norm, norm]
      · rw [if_neg hs]
        refine dec_quant _ _ u _ h2 ?_
        rw [norm, mkQuant, if_pos hq, norm, norm]
    | _ => exact absurd h.1 id
theorem roundtripL : ∀ l : List V, WFL l → ∃ js, encL l = .ok js ∧ decL js = .ok (normL l)
  | [], _ => ⟨[], rfl, rfl⟩
  | v :: l, h => by
    rw [WFL] at h
    obtain ⟨j, h1, h2⟩ := roundtrip_aux v h.1
    obtain ⟨js, h3, h4⟩ := roundtripL l h.2
    exact ⟨j :: js, by rw [encL, h1, h3]; rfl, by rw [decL, h2, h4, normL]; rfl⟩
theorem roundtripD : ∀ l : List (String × V), WFD l → ∃ js, encD l = .ok js ∧ decD js = .ok (normD l)
  | [], _ => ⟨[], rfl, rfl⟩
  | (k, v) :: l, h => by
    rw [WFD] at h
    obtain ⟨j, h1, h2⟩ := roundtrip_aux v h.2.1
    obtain ⟨js, h3, h4⟩ := roundtripD l h.2.2
    exact ⟨(k, j) :: js, by rw [encD, h1, h3]; rfl, by rw [decD, h2, h4, normD]; rfl⟩
end

/-- C51, partial: for the values of `WF`, writing and reading succeeds and gives the value back up to `norm`. -/
theorem roundtrip_eq (v : V) (h : WF v) : roundtrip v = .ok (norm v) := by
  obtain ⟨j, h1, h2⟩ := roundtrip_aux v h
  unfold roundtrip
  rw [h1]
  exact h2

mutual
/-- Values that the format keeps entirely: no tuples and numpy scalars, and no empty dimension except the last. -/
def Keeps : V → Prop
  | .list l => KeepsL l
  | .tup _ => False
  | .dict d => KeepsD d
  | .npint _ _ => False
  | .npflt _ _ => False
  | .arr _ shape _ => ∀ n ∈ shape.dropLast, n ≠ 0
  | .sarr _ shape _ => ∀ n ∈ shape.dropLast, n ≠ 0
  | .quant v _ => Keeps v
  | .cosmo p => KeepsD p
  | _ => True
def KeepsL : List V → Prop
  | [] => True
  | v :: l => Keeps v ∧ KeepsL l
def KeepsD : List (String × V) → Prop
  | [] => True
  | (_, v) :: l => Keeps v ∧ KeepsD l
end

theorem trunc_keeps (sh : List Nat) (h : ∀ n ∈ sh.dropLast, n ≠ 0) : trunc sh = sh := by
  induction sh with
  | nil => rfl
  | cons n sh ih =>
    cases sh with
    | nil => cases n <;> rfl
    | cons m sh =>
      have h' : ∀ k ∈ n :: (m :: sh).dropLast, k ≠ 0 := by simpa [List.dropLast] using h
      cases n with
      | zero => exact absurd rfl (h' 0 (by simp))
      | succ n => rw [trunc, ih fun k hk => h' k (by simp [hk])]

mutual
theorem norm_keeps : ∀ v : V, Keeps v → norm v = v
  | .none, _ => by simp [norm]
  | .bool _, _ => by simp [norm]
  | .int _, _ => by simp [norm]
  | .flt _, _ => by simp [norm]
  | .str _, _ => by simp [norm]
  | .cplx _ _, _ => by simp [norm]
  | .npint _ _, h => by rw [Keeps] at h; exact absurd h id
  | .npflt _ _, h => by rw [Keeps] at h; exact absurd h id
  | .tup _, h => by rw [Keeps] at h; exact absurd h id
  | .list l, h => by rw [Keeps] at h; rw [norm, normL_keeps l h]
  | .dict d, h => by rw [Keeps] at h; rw [norm, normD_keeps d h]
  | .cosmo d, h => by rw [Keeps] at h; rw [norm, normD_keeps d h]
  | .quant v u, h => by rw [Keeps] at h; rw [norm, norm_keeps v h]
  | .arr dt sh d, h => by rw [Keeps] at h; rw [norm, trunc_keeps sh h]
  | .sarr dt sh d, h => by rw [Keeps] at h; rw [norm, trunc_keeps sh h]
theorem normL_keeps : ∀ l : List V, KeepsL l → normL l = l
  | [], _ => by rw [normL]
  | v :: l, h => by rw [KeepsL] at h; rw [normL, norm_keeps v h.1, normL_keeps l h.2]
theorem normD_keeps : ∀ l : List (String × V), KeepsD l → normD l = l
  | [], _ => by rw [normD]
  | (k, v) :: l, h => by rw [KeepsD] at h; rw [normD, norm_keeps v h.1, normD_keeps l h.2]
end

/-- C51, partial: a value without reserved keys, tuples, numpy scalars, empty dimensions (but the last), bytes, nested or
padded structured dtypes and complex numbers with an infinite imaginary part is read back exactly as it was written. -/
theorem roundtrip_partial (v : V) (h : WF v) (hk : Keeps v) : roundtrip v = .ok v := by
  rw [roundtrip_eq v h, norm_keeps v hk]

/-! ### What is not read back -/

/-- C51 fails for arrays with an empty dimension before the last: the rest of the shape is lost. -/
theorem empty_shape (n : Nat) (sh : List Nat) (dt : String) (hk : (kind dt).isSome) :
    roundtrip (.arr dt (0 :: n :: sh) []) = .ok (.arr dt [0] []) := by
  rw [roundtrip_eq _ (by rw [WF]; exact ⟨hk, by simp [size], by simp⟩)]
  simp [norm, trunc]

/-- C51 fails for tuples. -/
theorem tuple_list : roundtrip (.tup [.int 1, .int 2]) = .ok (.list [.int 1, .int 2]) := rfl

/-- C51 fails for complex numbers with an infinite imaginary part: the real part becomes NaN. -/
theorem complex_inf (re : ℚ) (neg : Bool) :
    roundtrip (.cplx (.num re) (.inf neg)) = .ok (.cplx .nan (.inf neg)) := rfl

/-- C51 fails for user dictionaries with a reserved key: one reads back as a complex number, one cannot be read. -/
theorem reserved_complex :
    roundtrip (.dict [("__complex__", .list [.flt (.num 1), .flt (.num 2)])]) = .ok (.cplx (.num 1) (.num 2)) := by
  have := dec_cplx (.num 1) (.num 2) trivial
  exact this

theorem reserved_dtype : roundtrip (.dict [("__dtype__", .str "<f8")]) = .error .keyError := rfl

/-- C51 fails for bytes: they cannot be written. -/
theorem bytes_fail (dt : String) (s : String) : roundtrip (.arr dt [1] [.bytes s]) = .error .typeError := rfl

theorem kind_f8 : kind "<f8" = some .flt := by decide +kernel

theorem kind_list : kind "[...]" = none := by decide +kernel

/-- C51 fails for structured arrays with padding (aligned dtypes), which cannot be read. -/
theorem padded_fail (x : Fl) (pad : String) (dt : String) :
    roundtrip (.sarr [⟨"a", .base dt, none⟩, ⟨"", .base pad, none⟩] [1] [[[.flt x]]]) = .error .assertionError := rfl

/-- C51 fails for structured dtypes inside structured dtypes, which cannot be read. -/
theorem nested_fail (fs : List (String × String)) :
    roundtrip (.sarr [⟨"a", .nested fs, none⟩] [0] []) = .error .typeError := by
  have hl : ∀ l : List (String × String), decL (l.map fun p => J.arr [.str p.1, .str p.2]) =
      .ok (l.map fun p => V.list [.str p.1, .str p.2]) := fun l => decL_map fun p _ => rfl
  have e : enc (.sarr [⟨"a", .nested fs, none⟩] [0] []) =
      .ok (.obj [("__dtype__", .arr [.arr [.str "a", .arr (fs.map fun p => .arr [.str p.1, .str p.2])]]),
        ("__shape__", .arr [.int 0]), ("__data__", .arr [])]) := rfl
  have e2 : dec (.arr [.arr [.str "a", .arr (fs.map fun p => .arr [.str p.1, .str p.2])]]) =
      .ok (.list [.list [.str "a", .list (fs.map fun p => .list [.str p.1, .str p.2])]]) := by
    rw [dec, decL, decL, dec, decL, decL, decL, dec, dec, hl]
    rfl
  have e3 : ∀ w : List V, mkRec [("a", "[...]", Option.none)] (.list w) = .error .typeError := by
    intro w
    unfold mkRec mkFields
    simp [kind_list, bind, Except.bind]
  unfold roundtrip
  rw [e]
  simp only [bind, Except.bind]
  rw [dec, decD, decD, decD, decD, e2]
  have e4 : hookArr [("__dtype__", .list [.list [.str "a", .list (fs.map fun p => .list [.str p.1, .str p.2])]]),
      ("__shape__", .list [.int 0]), ("__data__", .list [])] = .error .typeError := by
    have : fixdtype [.list [.str "a", .list (fs.map fun p => .list [.str p.1, .str p.2])]] =
        .ok [("a", "[...]", Option.none)] := rfl
    unfold hookArr
    simp only [get, List.lookup, bind, Except.bind, lenOf]
    have e7 : fixdata 1 1 (.list []) = .ok (.list []) := rfl
    simp only [String.reduceBEq, this, List.length_cons, List.length_nil, Nat.zero_add, e7, e3]
  have e5 : dec (.arr [.int 0]) = .ok (.list [.int 0]) := rfl
  have e6 : dec (.arr []) = .ok (.list []) := rfl
  rw [e5, e6]
  simp only [bind, Except.bind, pure, Except.pure]
  unfold hook hookUnit
  rw [e4]
  rfl

/-- A nested value of the theorem: a dictionary with a 2 x 3 array, a structured array with a subarray, a quantity and
a complex number. -/
example : roundtrip (.dict [("a", .arr "<f8" [2, 1] [.flt (.num 1), .flt .nan]),
    ("b", .list [.sarr [⟨"x", .base "<f8", none⟩, ⟨"y", .base "<f8", some [2]⟩] [1]
      [[[.flt (.num 1)], [.flt (.num 2), .flt (.num 3)]]], .none, .cplx .nan (.num 2)]),
    ("c", .quant (.flt (.num 3)) "Mpc")]) =
    .ok (.dict [("a", .arr "<f8" [2, 1] [.flt (.num 1), .flt .nan]),
    ("b", .list [.sarr [⟨"x", .base "<f8", none⟩, ⟨"y", .base "<f8", some [2]⟩] [1]
      [[[.flt (.num 1)], [.flt (.num 2), .flt (.num 3)]]], .none, .cplx .nan (.num 2)]),
    ("c", .quant (.flt (.num 3)) "Mpc")]) := by
  apply roundtrip_partial
  · simp [WF, WFL, WFD, reserved, fits, kind_f8, size, Fl.finite, isQuant, rowOk, Field.ok, Field.base]
    rintro a b (⟨rfl, rfl⟩ | ⟨rfl, rfl⟩) <;> simp [kind_f8]
  · simp [Keeps, KeepsL, KeepsD]

end NBK.Json
