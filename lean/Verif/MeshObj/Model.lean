import Mathlib.Algebra.Order.Ring.Rat

/-!
# Model of mesh objects: sources, views, attributes, preview (nbodykit/base/mesh.py 34-365, nbodykit/source/mesh/field.py, array.py, linear.py)

Fields, meshes and the arrays in `attrs` are objects held by reference. A field in configuration space has any type `R`; one in Fourier space gives a number to each mode, which
is a list of indices. pmesh is given by the environment: the transforms, resampling, loading an array, the Gaussian field, the preview, and whether a copy of a field keeps
the attributes. Fields are those of all ranks together.
-/
namespace NBK.MeshObj

inductive Err where
  | valueError | assertionError | keyError | typeError | indexError
  deriving DecidableEq, Repr

inductive Mode where
  | real | complex
  deriving DecidableEq, Repr

structure Cx where
  re : ℚ
  im : ℚ
  deriving DecidableEq, Repr

/-- A field in Fourier space. -/
abbrev CF := List Nat → Cx

/-- `RealField`, `ComplexField`, or one of the other complex classes of pmesh (untransposed). -/
inductive Fld (R : Type) where
  | re (x : R)
  | co (y : CF)
  | un (y : CF)

/-- Values in `attrs`; an array can be changed in place. -/
inductive Val where
  | num (q : ℚ)
  | arr (l : List ℚ)
  | flag (b : Bool)
  | text (s : String)
  deriving DecidableEq, Repr

abbrev Dict := String → Option Nat

def Dict.set (d : Dict) (k : String) (v : Nat) : Dict := fun x => if x = k then some v else d x

/-- `d.update(e)`. -/
def Dict.update (d e : Dict) : Dict := fun x => (e x).or (d x)

/-- A pmesh field: data, `pm.Nmesh`, `pm.BoxSize`, `attrs`. -/
structure FieldObj (R : Type) where
  data : Fld R
  nmesh : List Nat
  box : List ℚ
  attrs : Dict

/-- A function given to `apply`: what it does in each space with the coordinates of a kind. -/
structure Fn (R : Type) where
  re : String → R → R
  co : String → CF → CF

/-- An action `(mode, func, kind)` (mesh.py 109-116). -/
structure Act (R : Type) where
  mode : Mode
  kind : String
  fn : Fn R

/-- Where the field of a mesh comes from: a field (`FieldMesh`, `ArrayMesh`), a linear power spectrum, another mesh. -/
inductive Src (P : Type) where
  | field (f : Nat)
  | linear (p : P)
  | view (base : Nat)

structure MeshObj (R P : Type) where
  src : Src P
  actions : List (Act R)
  attrs : Dict
  nmesh : List Nat
  box : List ℚ

/-- Everything that lives in a program. -/
structure World (R P : Type) where
  fields : List (FieldObj R)
  meshes : List (MeshObj R P)
  vals : List Val

/-- pmesh. `A` are numpy arrays. -/
structure Env (R P A : Type) where
  r2c : R → CF
  c2r : CF → R
  resampleR : List Nat → List Nat → R → R
  resampleC : List Nat → List Nat → CF → CF
  gauss : P → ℚ → Bool → Bool → List Nat → List ℚ → CF
  load : List Nat → A → R
  irfftn : A → A
  scale : ℚ → A → A
  preview : R → List Nat → R
  copyAttrs : Bool

variable {R P A : Type}

/-! ## `MeshSource.__init__` (mesh.py 34-60) -/

/-- A number or a list. -/
inductive Arg (α : Type) where
  | one (a : α)
  | many (l : List α)

/-- `_Nmesh` (mesh.py 43-49). -/
def shapeOf : Option (Arg Nat) → Except Err (List Nat)
  | none => .error .valueError
  | some (.one n) => .ok [n, n, n]
  | some (.many l) => .ok l

/-- `BoxSize` filled into an array of `ndim` numbers (pmesh). -/
def boxOf (ndim : Nat) : Option (Arg ℚ) → Except Err (List ℚ)
  | none => .error .valueError
  | some (.one b) => .ok (List.replicate ndim b)
  | some (.many [b]) => .ok (List.replicate ndim b)
  | some (.many l) => if l.length = ndim then .ok l else .error .valueError

/-- New entries of `attrs`, each with its own value. -/
def alloc (vals : List Val) (d : Dict) : List (String × Val) → List Val × Dict
  | [] => (vals, d)
  | (k, v) :: l => alloc (vals ++ [v]) (d.set k vals.length) l

/-- A new mesh with the attributes `pre` of the class, then `BoxSize` and `Nmesh` (mesh.py 34-60). -/
def newMesh (w : World R P) (src : Src P) (pre : List (String × Val)) (nmesh : Option (Arg Nat)) (box : Option (Arg ℚ)) : Except Err (World R P × Nat) :=
  if nmesh.isNone ∨ box.isNone then .error .valueError else
  (shapeOf nmesh).bind fun n => (boxOf n.length box).map fun b =>
    let r := alloc w.vals (fun _ => none) (pre ++ [("BoxSize", .arr b), ("Nmesh", .arr (n.map fun (i : Nat) => (i : ℚ)))])
    ({ w with meshes := w.meshes ++ [⟨src, [], r.2, n, b⟩], vals := r.1 }, w.meshes.length)

/-! ## The classes -/

/-- `FieldMesh(field)` (field.py 26-29): the field is kept, not copied. -/
def newFieldMesh (w : World R P) (f : Nat) : Except Err (World R P × Nat) :=
  match w.fields[f]? with
  | none => .error .keyError
  | some o => newMesh w (.field f) [] (some (.many o.nmesh)) (some (.many o.box))

/-- An array given to `ArrayMesh`. -/
structure NpArr (A : Type) where
  shape : List Nat
  isComplex : Bool
  data : A

/-- The shape of `irfftn` (array.py 36-39). -/
def irShape (l : List Nat) : List Nat := l.dropLast ++ [2 * (l.getLastD 1 - 1)]

/-- The array of real numbers on the root (array.py 34-41). -/
def realArr (e : Env R P A) (a : NpArr A) : Except Err (List Nat × A) :=
  if a.isComplex then
    if (irShape a.shape).contains 0 then .error .valueError
    else .ok (irShape a.shape, e.scale ((irShape a.shape).prod : Nat) (e.irfftn a.data))
  else .ok (a.shape, a.data)

/-- `ArrayMesh(array, BoxSize, root=root, **kwargs)` (array.py 32-63), with the arrays of all ranks: those of other ranks are ignored, and so is `kwargs`. -/
def newArrayMesh (e : Env R P A) (w : World R P) (arrays : List (NpArr A)) (root : Nat) (box : Option (Arg ℚ)) (_kwargs : List (String × Val)) : Except Err (World R P × Nat) :=
  match arrays[root]? with
  | none => .error .indexError
  | some a =>
    (realArr e a).bind fun r =>
      if r.1.length = 2 ∨ r.1.length = 3 then
        (boxOf r.1.length box).bind fun b =>
          newMesh { w with fields := w.fields ++ [⟨.re (e.load r.1 r.2), r.1, b, fun _ => none⟩] } (.field w.fields.length) [] (some (.many r.1)) box
      else .error .assertionError

/-- The attributes of `LinearMesh` (linear.py 43-62): those of the power spectrum with a prefix, the seed (drawn on the root if none is given), the switches. -/
def linearAttrs (plin : List (String × Val)) (seed : Option ℚ) (draw : ℚ) (unitary inverted : Bool) (removeVariance : Option Bool) : List (String × Val) :=
  plin.map (fun p => ("plin." ++ p.1, p.2)) ++
    [("seed", .num (seed.getD draw)), ("unitary_amplitude", .flag (removeVariance.getD unitary)), ("inverted_phase", .flag inverted)]

/-- `LinearMesh(...)` (linear.py 37-64). -/
def newLinear (w : World R P) (p : P) (plin : List (String × Val)) (box : Option (Arg ℚ)) (nmesh : Option (Arg Nat)) (seed : Option ℚ) (draw : ℚ)
    (unitary inverted : Bool) (removeVariance : Option Bool) : Except Err (World R P × Nat) :=
  newMesh w (.linear p) (linearAttrs plin seed draw unitary inverted removeVariance) nmesh box

/-! ## Fields -/

/-- The value of an entry. -/
def World.attr (w : World R P) (d : Dict) (k : String) : Option Val := (d k).bind fun r => w.vals[r]?

def Val.truthy : Val → Bool
  | .num q => q ≠ 0
  | .arr l => l ≠ []
  | .flag b => b
  | .text s => s ≠ ""

/-- The wavenumber of index `i` on an axis, in units of the fundamental mode. -/
def freq (n i : Nat) : Int := if 2 * i < n then (i : Int) else (i : Int) - n

/-- `filter` (linear.py 83-91): one at the modes all of whose wavenumbers are zero. -/
def unitMean (nmesh : List Nat) (y : CF) : CF := fun k => if (nmesh.zip k).all fun p => freq p.1 p.2 = 0 then ⟨1, 0⟩ else y k

/-- `LinearMesh.to_complex_field` (linear.py 65-98). -/
def linearField (e : Env R P A) (w : World R P) (p : P) (m : MeshObj R P) : Except Err CF :=
  match w.attr m.attrs "seed", w.attr m.attrs "unitary_amplitude", w.attr m.attrs "inverted_phase" with
  | some (.num s), some u, some i => .ok (unitMean m.nmesh (e.gauss p s u.truthy i.truthy m.nmesh m.box))
  | none, _, _ => .error .keyError
  | _, none, _ => .error .keyError
  | _, _, none => .error .keyError
  | _, _, _ => .error .typeError

/-- A copy of a field. -/
def copyOf (e : Env R P A) (f : FieldObj R) : FieldObj R := { f with attrs := if e.copyAttrs then f.attrs else fun _ => none }

/-- `to_real_field` (mesh.py 184-192, field.py 40-46, array.py 64-68): `none` is NotImplemented. A view asks its base; bases have smaller numbers, `fuel` bounds the chain. -/
def toReal (e : Env R P A) (w : World R P) : Nat → Nat → Except Err (Option (FieldObj R))
  | 0, _ => .error .keyError
  | fuel + 1, m =>
    match w.meshes[m]? with
    | none => .error .keyError
    | some o =>
      match o.src with
      | .view b => toReal e w fuel b
      | .linear _ => .ok none
      | .field f =>
        match w.fields[f]? with
        | none => .error .keyError
        | some x =>
          match x.data with
          | .re _ => .ok (some (copyOf e x))
          | _ => .ok none

/-- `to_complex_field` (mesh.py 194-202, field.py 31-38, linear.py 65-98). -/
def toComplex (e : Env R P A) (w : World R P) : Nat → Nat → Except Err (Option (FieldObj R))
  | 0, _ => .error .keyError
  | fuel + 1, m =>
    match w.meshes[m]? with
    | none => .error .keyError
    | some o =>
      match o.src with
      | .view b => toComplex e w fuel b
      | .linear p => (linearField e w p o).map fun y => some ⟨.co y, o.nmesh, o.box, o.attrs⟩
      | .field f =>
        match w.fields[f]? with
        | none => .error .keyError
        | some x =>
          match x.data with
          | .co _ => .ok (some (copyOf e x))
          | _ => .ok none

/-- `r2c(out=Ellipsis)` and `c2r(out=Ellipsis)` if the field has the other mode (mesh.py 296-303). -/
def convert (e : Env R P A) : Mode → Fld R → Fld R
  | .real, .re x => .re x
  | .real, .co y => .re (e.c2r y)
  | .real, .un y => .re (e.c2r y)
  | .complex, .re x => .co (e.r2c x)
  | .complex, .co y => .co y
  | .complex, .un y => .un y

/-- `to_field(mode)` (mesh.py 204-244): the other method if one is not implemented; the attributes are kept. -/
def toField (e : Env R P A) (w : World R P) (m : Nat) (mode : Mode) : Except Err (FieldObj R) :=
  let first := match mode with
    | .real => toReal e w w.meshes.length m
    | .complex => toComplex e w w.meshes.length m
  let second := match mode with
    | .real => toComplex e w w.meshes.length m
    | .complex => toReal e w w.meshes.length m
  first.bind fun a =>
    match a with
    | some f => .ok f
    | none => second.bind fun b =>
      match b with
      | none => .error .assertionError
      | some f => .ok { f with data := convert e mode f.data }

/-- One action (mesh.py 294-311). -/
def Act.run (e : Env R P A) (x : Fld R) (a : Act R) : Fld R :=
  match convert e a.mode x with
  | .re x => .re (a.fn.re a.kind x)
  | .co y => .co (a.fn.co a.kind y)
  | .un y => .un (a.fn.co a.kind y)

/-- The new `Nmesh` (`pm.reshape`, mesh.py 318): `None` keeps it. -/
def reshape (n : List Nat) : Option (Arg Nat) → Except Err (List Nat)
  | none => .ok n
  | some (.one i) => .ok (List.replicate n.length i)
  | some (.many l) => if l.length = n.length then .ok l else .error .valueError

/-- `resample` into a new field (mesh.py 320-324). -/
def resample (e : Env R P A) (n n' : List Nat) : Fld R → Fld R
  | .re x => .re (e.resampleR n n' x)
  | .co y => .co (e.resampleC n n' y)
  | .un y => .co (e.resampleC n n' y)

/-- `compute(mode, Nmesh)` (mesh.py 246-338): a new field. -/
def computeField (e : Env R P A) (w : World R P) (m : Nat) (mode : Option Mode) (nmesh : Option (Arg Nat)) : Except Err (FieldObj R) :=
  match mode with
  | none => .error .valueError
  | some mode =>
    match w.meshes[m]? with
    | none => .error .keyError
    | some o =>
      (toField e w m ((o.actions.head?.map Act.mode).getD mode)).bind fun f =>
        let x := convert e mode (o.actions.foldl (Act.run e) f.data)
        (reshape o.nmesh nmesh).map fun n =>
          if n ≠ o.nmesh then ⟨resample e o.nmesh n x, n, o.box, f.attrs.update o.attrs⟩ else ⟨x, f.nmesh, f.box, f.attrs.update o.attrs⟩

/-- `preview(Nmesh=...)` (mesh.py 340-365): the field of the source, without the actions. -/
def preview (e : Env R P A) (w : World R P) (m : Nat) (nmesh : Option (Arg Nat)) : Except Err R :=
  (toField e w m .real).bind fun f =>
    match w.meshes[m]? with
    | none => .error .keyError
    | some o => (reshape o.nmesh nmesh).bind fun n =>
      match f.data with
      | .re x => .ok (e.preview x n)
      | _ => .error .typeError

/-! ## `apply` and views (mesh.py 61-176) -/

/-- What is passed as `func`: a function, a class of filters, a filter; a filter has its own mode and kind (text or `None`). -/
inductive Func (R : Type) where
  | plain (f : Fn R)
  | filterClass (mode kind : Option String) (f : Fn R)
  | filter (mode kind : Option String) (f : Fn R)

def Func.resolve (mode kind : Option String) : Func R → Option String × Option String × Fn R
  | .plain f => (mode, kind, f)
  | .filterClass m k f => (m, k, f)
  | .filter m k f => (m, k, f)

/-- The asserts (mesh.py 165-169). -/
def checkAct (mode kind : Option String) (f : Fn R) : Except Err (Act R) :=
  if mode = some "real" then
    if kind = some "relative" ∨ kind = some "index" then .ok ⟨.real, kind.getD "", f⟩ else .error .assertionError
  else if mode = some "complex" then
    if kind = some "wavenumber" ∨ kind = some "circular" ∨ kind = some "index" then .ok ⟨.complex, kind.getD "", f⟩ else .error .assertionError
  else .error .assertionError

/-- `view()` (mesh.py 61-94): a copy of the dictionary `attrs` and of the list of actions. -/
def view (w : World R P) (m : Nat) : Except Err (World R P × Nat) :=
  match w.meshes[m]? with
  | none => .error .keyError
  | some o => .ok ({ w with meshes := w.meshes ++ [⟨.view m, o.actions, o.attrs, o.nmesh, o.box⟩] }, w.meshes.length)

/-- `apply` (mesh.py 118-176). -/
def apply (w : World R P) (m : Nat) (func : Func R) (kind mode : Option String) : Except Err (World R P × Nat) :=
  let r := func.resolve mode kind
  (checkAct r.1 r.2.1 r.2.2).bind fun a =>
    match w.meshes[m]? with
    | none => .error .keyError
    | some o => .ok ({ w with meshes := w.meshes ++ [⟨.view m, o.actions ++ [a], o.attrs, o.nmesh, o.box⟩] }, w.meshes.length)

/-! ## Programs -/

inductive Op (R P A : Type) where
  | field (f : Fld R) (nmesh : List Nat) (box : List ℚ)
  | fieldMesh (f : Nat)
  | arrayMesh (arrays : List (NpArr A)) (root : Nat) (box : Option (Arg ℚ)) (kwargs : List (String × Val))
  | linear (p : P) (plin : List (String × Val)) (box : Option (Arg ℚ)) (nmesh : Option (Arg Nat)) (seed : Option ℚ) (draw : ℚ) (unitary inverted : Bool) (remove : Option Bool)
  | view (m : Nat)
  | apply (m : Nat) (func : Func R) (kind mode : Option String)
  | compute (m : Nat) (mode : Option Mode) (nmesh : Option (Arg Nat))
  | writeField (f : Nat) (x : Fld R)
  | setAttr (m : Nat) (k : String) (v : Val)
  | setFieldAttr (f : Nat) (k : String) (v : Val)
  | writeAttr (m : Nat) (k : String) (l : List ℚ)
  | writeFieldAttr (f : Nat) (k : String) (l : List ℚ)

/-- `attrs[k][:] = l`: only arrays can be written to. A list of one number, which numpy would repeat, is taken to be an array of one number only. -/
def writeVal (w : World R P) (d : Dict) (k : String) (l : List ℚ) : Except Err (World R P) :=
  match d k with
  | none => .error .keyError
  | some r =>
    match w.vals[r]? with
    | some (.arr old) => if l.length = old.length then .ok { w with vals := w.vals.set r (.arr l) } else .error .valueError
    | _ => .error .typeError

/-- One operation. A field keeps its class when its values are overwritten. -/
def step (e : Env R P A) (w : World R P) : Op R P A → Except Err (World R P)
  | .field f n b => .ok { w with fields := w.fields ++ [⟨f, n, b, fun _ => none⟩] }
  | .fieldMesh f => (newFieldMesh w f).map Prod.fst
  | .arrayMesh arrays root box kw => (newArrayMesh e w arrays root box kw).map Prod.fst
  | .linear p plin box nmesh seed draw u i r => (newLinear w p plin box nmesh seed draw u i r).map Prod.fst
  | .view m => (view w m).map Prod.fst
  | .apply m func kind mode => (apply w m func kind mode).map Prod.fst
  | .compute m mode nmesh => (computeField e w m mode nmesh).map fun f => { w with fields := w.fields ++ [f] }
  | .writeField f x =>
    match w.fields[f]?, x with
    | some ⟨.re _, n, b, a⟩, .re x => .ok { w with fields := w.fields.set f ⟨.re x, n, b, a⟩ }
    | some ⟨.co _, n, b, a⟩, .co y => .ok { w with fields := w.fields.set f ⟨.co y, n, b, a⟩ }
    | some ⟨.un _, n, b, a⟩, .un y => .ok { w with fields := w.fields.set f ⟨.un y, n, b, a⟩ }
    | _, _ => .error .valueError
  | .setAttr m k v =>
    match w.meshes[m]? with
    | none => .error .keyError
    | some o => .ok { w with meshes := w.meshes.set m { o with attrs := o.attrs.set k w.vals.length }, vals := w.vals ++ [v] }
  | .setFieldAttr f k v =>
    match w.fields[f]? with
    | none => .error .keyError
    | some o => .ok { w with fields := w.fields.set f { o with attrs := o.attrs.set k w.vals.length }, vals := w.vals ++ [v] }
  | .writeAttr m k l =>
    match w.meshes[m]? with
    | none => .error .keyError
    | some o => writeVal w o.attrs k l
  | .writeFieldAttr f k l =>
    match w.fields[f]? with
    | none => .error .keyError
    | some o => writeVal w o.attrs k l

/-- A failed operation changes nothing. -/
def run (e : Env R P A) (w : World R P) : List (Op R P A) → World R P
  | [] => w
  | o :: l => run e ((step e w o).toOption.getD w) l

end NBK.MeshObj
