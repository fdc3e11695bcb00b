import Verif.MeshObj.Model
import Mathlib.Algebra.Order.Ring.Rat
import Mathlib.Algebra.BigOperators.Group.List.Basic

/-!
# Model of `CatalogMesh` objects in programs (nbodykit/source/mesh/catalog.py 60-420, base/catalog.py 787-873, base/mesh.py 34-365)

Catalogs, meshes, their views and the fields computed from them live in a world in which the values of `attrs` are held by reference.
The classes of pmesh and the actions are those of topic MeshObj; a field in configuration space gives a number to each cell.
Painting is linear: `dep` is the field of one object of mass one for a window and a choice of interlacing. The columns are those of all ranks
together; the chunks of the loop have a fixed size (topic Paint has the throttled ones). The type of the numbers (`dtype`) is left out.
-/
namespace NBK.CatMesh
open NBK.MeshObj (Fld Fn Act Func Val Dict Arg Mode Err CF)

/-- A field in configuration space: a number for each cell. -/
abbrev Rf := Nat → ℚ

/-- A column. -/
inductive Col (Pos : Type) where
  | pos (l : List Pos)
  | num (l : List ℚ)
  | flag (l : List Bool)
  deriving DecidableEq, Repr

variable {Pos : Type}

def Col.length : Col Pos → Nat
  | .pos l => l.length
  | .num l => l.length
  | .flag l => l.length

/-- A catalog: the columns that were set, the number of rows, `attrs`. -/
structure Cat (Pos : Type) where
  cols : String → Option (Col Pos)
  size : Nat
  attrs : Dict

/-- The default columns (base/catalog.py 1042-1074). -/
def defaultCol (size : Nat) (k : String) : Option (Col Pos) :=
  if k = "Weight" ∨ k = "Value" then some (.num (List.replicate size 1))
  else if k = "Selection" then some (.flag (List.replicate size true))
  else none

/-- `cat[k]` (base/catalog.py 360-385). -/
def Cat.col (c : Cat Pos) (k : String) : Option (Col Pos) := (c.cols k).or (defaultCol c.size k)

/-- The columns held by a mesh (catalog.py 86-89); `None` if not given. -/
structure Cols (Pos : Type) where
  pos : Option (Col Pos)
  weight : Option (Col Pos)
  value : Option (Col Pos)
  sel : Option (Col Pos)
  deriving DecidableEq, Repr

/-- A `CatalogMesh`, or a view of a mesh: a plain `MeshSource` with a base. -/
inductive Src (Pos : Type) where
  | cat (c : Nat) (cols : Cols Pos)
  | view (base : Nat)

structure Mesh (Pos : Type) where
  src : Src Pos
  actions : List (Act Rf)
  attrs : Dict
  nmesh : List Nat
  box : List ℚ

structure World (Pos : Type) where
  cats : List (Cat Pos)
  meshes : List (Mesh Pos)
  fields : List (MeshObj.FieldObj Rf)
  vals : List Val

/-- pmesh: transforms, the names of the windows, lower case, the field of one object, the compensation of catalog.py 453-594, the size of a chunk. -/
structure Env (Pos : Type) where
  pm : MeshObj.Env Rf Unit Unit
  methods : List String
  lower : String → String
  dep : String → Bool → Pos → Rf
  comp : Bool → String → CF → CF
  chunk : Nat

/-! ## Making a mesh -/

/-- `CatalogMesh.__init__` (catalog.py 60-95): the attributes of the source, then `BoxSize` and `Nmesh`, then the three settings, each a new object. -/
def newCat (w : World Pos) (c : Nat) (nmesh : Option (Arg Nat)) (box : Option (Arg ℚ)) (cols : Cols Pos) (interlaced compensated : Bool) (resampler : String) :
    Except Err (World Pos × Nat) :=
  match w.cats[c]? with
  | none => .error .assertionError
  | some o =>
    if nmesh.isNone ∨ box.isNone then .error .valueError else
    (MeshObj.shapeOf nmesh).bind fun n => (MeshObj.boxOf n.length box).map fun b =>
      let r := MeshObj.alloc w.vals o.attrs [("BoxSize", .arr b), ("Nmesh", .arr (n.map fun (i : Nat) => (i : ℚ))),
        ("interlaced", .flag interlaced), ("compensated", .flag compensated), ("resampler", .text resampler)]
      ({ w with meshes := w.meshes ++ [⟨.cat c cols, [], r.2, n, b⟩], vals := r.1 }, w.meshes.length)

/-- The arguments of `to_mesh` with their defaults (base/catalog.py 787-789). -/
structure MeshArgs where
  nmesh : Option (Arg Nat) := none
  box : Option (Arg ℚ) := none
  interlaced : Bool := false
  compensated : Bool := false
  resampler : String := "cic"
  weight : String := "Weight"
  value : String := "Value"
  selection : String := "Selection"
  position : String := "Position"
  window : Option String := none

/-- An entry of `attrs` used as the box. -/
def argBox : Val → Except Err (Arg ℚ)
  | .num q => .ok (.one q)
  | .arr l => .ok (.many l)
  | _ => .error .typeError

/-- An entry of `attrs` used as the mesh: truncated to integers; a negative size is refused by pmesh. -/
def argMesh : Val → Except Err (Arg Nat)
  | .num q => if q < 0 then .error .valueError else .ok (.one q.floor.toNat)
  | .arr l => if l.any fun q => q < 0 then .error .valueError else .ok (.many (l.map fun q => q.floor.toNat))
  | _ => .error .typeError

def attrOf (w : World Pos) (d : Dict) (k : String) : Option Val := (d k).bind fun r => w.vals[r]?

/-- The keyword, or else the attribute of the catalog (base/catalog.py 849-862). -/
def orAttr {α : Type} (given : Option α) (v : Option Val) (conv : Val → Except Err α) : Except Err α :=
  match given, v with
  | some a, _ => .ok a
  | none, some v => conv v
  | none, none => .error .valueError

/-- `cat[k]`, which raises KeyError for a name that is not a column. -/
def need (c : Cat Pos) (k : String) : Except Err (Col Pos) :=
  match c.col k with
  | some x => .ok x
  | none => .error .keyError

/-- `to_mesh` (base/catalog.py 833-873). -/
def toMesh (e : Env Pos) (w : World Pos) (c : Nat) (a : MeshArgs) : Except Err (World Pos × Nat) :=
  match w.cats[c]? with
  | none => .error .typeError
  | some o =>
    let resampler := a.window.getD a.resampler
    if (o.col a.weight).isNone ∨ (o.col a.selection).isNone then .error .valueError
    else if resampler ∉ e.methods then .error .valueError
    else
      (orAttr a.box (attrOf w o.attrs "BoxSize") argBox).bind fun b =>
      (orAttr a.nmesh (attrOf w o.attrs "Nmesh") argMesh).bind fun n =>
      (need o a.weight).bind fun cw => (need o a.selection).bind fun cs => (need o a.value).bind fun cv => (need o a.position).bind fun cp =>
        newCat w c (some n) (some b) ⟨some cp, some cw, some cv, some cs⟩ a.interlaced a.compensated resampler

/-! ## Painting -/

/-- One object on the mesh. -/
structure Row (Pos : Type) where
  pos : Pos
  weight : ℚ
  value : ℚ
  deriving DecidableEq, Repr

def Col.nums : Col Pos → Option (List ℚ)
  | .num l => some l
  | .flag l => some (l.map fun b => if b then 1 else 0)
  | .pos _ => none

/-- The part `slice(i, i + c)` of a list. -/
def part {α : Type} (i c : Nat) (l : List α) : List α := (l.drop i).take c

/-- Boolean index: the lengths have to agree. -/
def index {α : Type} (l : List α) : Option (List Bool) → Except Err (List α)
  | none => .ok l
  | some s => if s.length = l.length then .ok ((l.zip s).filterMap fun p => if p.2 then some p.1 else none) else .error .indexError

/-- A column of numbers in a chunk: the selected ones, or ones (catalog.py 243-262). -/
def numsIn (n i c : Nat) (sel : Option (List Bool)) : Option (List ℚ) → Except Err (List ℚ)
  | none => .ok (List.replicate n 1)
  | some l => index (part i c l) sel

/-- `dochunk` (catalog.py 231-290): value, weight and position are selected in this order; the exchange refuses columns of another length. -/
def chunkRows (i c : Nat) (pos : List Pos) (weight value : Option (List ℚ)) (sel : Option (List Bool)) : Except Err (List (Row Pos)) :=
  let s := sel.map (part i c)
  (index (part i c pos) s).bind fun p =>
  (numsIn p.length i c s value).bind fun v =>
  (numsIn p.length i c s weight).bind fun w =>
    if w.length = p.length ∧ v.length = p.length then .ok (List.zipWith (fun x (y : ℚ × ℚ) => ⟨x, y.1, y.2⟩) p (w.zip v))
    else .error .valueError

/-- The loop (catalog.py 300-332): chunks `k, k+1, …` of size `c`. -/
def chunksFrom (c : Nat) (pos : List Pos) (weight value : Option (List ℚ)) (sel : Option (List Bool)) : Nat → Nat → Except Err (List (Row Pos))
  | _, 0 => .ok []
  | k, n + 1 => (chunkRows (k * c) c pos weight value sel).bind fun r => (chunksFrom c pos weight value sel (k + 1) n).map fun l => r ++ l

def optNums : Option (Col Pos) → Except Err (Option (List ℚ))
  | none => .ok none
  | some x => match x.nums with
    | some l => .ok (some l)
    | none => .error .typeError

/-- The columns as arrays: only booleans as selection, only positions as position (`len(None)` raises TypeError). -/
def rowsOf (c : Nat) (x : Cols Pos) : Except Err (List (Row Pos)) :=
  match x.pos with
  | some (.pos p) =>
    (optNums x.weight).bind fun w => (optNums x.value).bind fun v =>
    match x.sel with
    | none => chunksFrom c p w v none 0 ((p.length + c - 1) / c)
    | some (.flag s) => chunksFrom c p w v (some s) 0 ((p.length + c - 1) / c)
    | some _ => .error .indexError
  | _ => .error .typeError

/-- What `if x:` makes of a value. -/
def truth : Val → Except Err Bool
  | .num q => .ok (decide (q ≠ 0))
  | .flag b => .ok b
  | .text s => .ok (decide (s ≠ ""))
  | .arr [] => .ok false
  | .arr [q] => .ok (decide (q ≠ 0))
  | .arr _ => .error .valueError

/-- A setting used as a condition: `self.attrs[k]` (catalog.py 96-147). -/
def flagOf (w : World Pos) (d : Dict) (k : String) : Except Err Bool :=
  match attrOf w d k with
  | none => .error .keyError
  | some v => truth v

/-- `self.resampler`, a name. -/
def nameOf (w : World Pos) (d : Dict) : Except Err String :=
  match attrOf w d "resampler" with
  | some (.text s) => .ok s
  | some (.arr _) => .error .typeError
  | _ => .error .keyError

/-- `window.methods[self.resampler]` (catalog.py 186). -/
def windowOf (e : Env Pos) (w : World Pos) (d : Dict) : Except Err String :=
  (nameOf w d).bind fun s => if s ∈ e.methods then .ok s else .error .keyError

/-- The mass in a cell: weight times value times the share of the cell. -/
def painted (e : Env Pos) (win : String) (inter : Bool) (rows : List (Row Pos)) : Rf :=
  fun c => (rows.map fun r => r.weight * r.value * e.dep win inter r.pos c).sum

/-- After the loop (catalog.py 355-402): `out` holds what was there before. -/
def finish (out : Rf) (field : Rf) (rows : List (Row Pos)) (ncells : Nat) (normalize : Bool) : Rf :=
  let nbar := (rows.map Row.weight).sum / ncells
  fun c => if normalize then (if 0 < nbar then (out c + field c) / nbar else 1) else out c + field c

/-- The attributes of the field (catalog.py 371-381). `0/0` and `x/0` are left out: a text stands for them. -/
def stats (rows : List (Row Pos)) (ncells : Nat) (volume : ℚ) : List (String × Val) :=
  let ws := (rows.map Row.weight).sum
  let w2 := (rows.map fun r => r.weight ^ 2).sum
  [("shotnoise", if ws = 0 then .text "nan" else .num (volume * w2 / ws ^ 2)), ("N", .num rows.length), ("W", .num ws), ("W2", .num w2), ("num_per_cell", .num (ws / ncells))]

/-- `CatalogMesh.to_real_field(out, normalize)` (catalog.py 150-402): the field and the attributes. -/
def paintCat (e : Env Pos) (w : World Pos) (m : Mesh Pos) (cols : Cols Pos) (out : Rf) (normalize : Bool) : Except Err (Rf × List (String × Val)) :=
  (windowOf e w m.attrs).bind fun win => (flagOf w m.attrs "interlaced").bind fun inter => (rowsOf e.chunk cols).map fun rows =>
    (finish out (painted e win inter rows) rows m.nmesh.prod normalize, stats rows m.nmesh.prod m.box.prod)

/-- `to_real_field()` of any mesh: a view asks its base, without the arguments (mesh.py 184-192). Bases have smaller numbers, `fuel` bounds the chain. -/
def toReal (e : Env Pos) (w : World Pos) : Nat → Nat → Rf → Bool → Except Err (Rf × List (String × Val) × List Nat × List ℚ)
  | 0, _, _, _ => .error .keyError
  | fuel + 1, m, out, normalize =>
    match w.meshes[m]? with
    | none => .error .keyError
    | some o =>
      match o.src with
      | .view b => toReal e w fuel b (fun _ => 0) true
      | .cat _ cols => (paintCat e w o cols out normalize).map fun r => (r.1, r.2, o.nmesh, o.box)

/-! ## Actions -/

/-- `get_compensation(self.interlaced, self.resampler)` (catalog.py 415-451). -/
def compAct (e : Env Pos) (w : World Pos) (d : Dict) : Except Err (Act Rf) :=
  match attrOf w d "interlaced", attrOf w d "resampler" with
  | some i, some r =>
    (truth i).bind fun i =>
      match r with
      | .text s => if s = "cic" ∨ s = "tsc" ∨ s = "pcs" then .ok ⟨.complex, "circular", ⟨fun _ x => x, fun _ => e.comp i s⟩⟩ else .error .valueError
      | .arr _ => .error .typeError
      | _ => .error .valueError
  | _, _ => .error .keyError

/-- `actions` (mesh.py 107-116, catalog.py 404-413): a `CatalogMesh` puts the compensation first. -/
def actions (e : Env Pos) (w : World Pos) (m : Mesh Pos) : Except Err (List (Act Rf)) :=
  match m.src with
  | .view _ => .ok m.actions
  | .cat _ _ =>
    (flagOf w m.attrs "compensated").bind fun b =>
      if b then (compAct e w m.attrs).map fun a => a :: m.actions else .ok m.actions

/-- `view()` (mesh.py 61-94): the actions as they are now, a copy of the dictionary. -/
def view (e : Env Pos) (w : World Pos) (m : Nat) : Except Err (World Pos × Nat) :=
  match w.meshes[m]? with
  | none => .error .keyError
  | some o => (actions e w o).map fun l => ({ w with meshes := w.meshes ++ [⟨.view m, l, o.attrs, o.nmesh, o.box⟩] }, w.meshes.length)

/-- `apply` (mesh.py 118-176). -/
def apply (e : Env Pos) (w : World Pos) (m : Nat) (func : Func Rf) (kind mode : Option String) : Except Err (World Pos × Nat) :=
  let r := func.resolve mode kind
  (MeshObj.checkAct r.1 r.2.1 r.2.2).bind fun a =>
    match w.meshes[m]? with
    | none => .error .keyError
    | some o => (actions e w o).map fun l => ({ w with meshes := w.meshes ++ [⟨.view m, l ++ [a], o.attrs, o.nmesh, o.box⟩] }, w.meshes.length)

/-- `to_field(mode)` (mesh.py 204-244): the Fourier transform of the painted field. -/
def toField (e : Env Pos) (w : World Pos) (m : Nat) (mode : Mode) : Except Err (Fld Rf × List (String × Val) × List Nat × List ℚ) :=
  (toReal e w w.meshes.length m (fun _ => 0) true).map fun r => (MeshObj.convert e.pm mode (.re r.1), r.2)

/-- The data of `compute(mode, Nmesh)` (mesh.py 246-331). -/
def computeData (e : Env Pos) (w : World Pos) (m : Nat) (mode : Option Mode) (nmesh : Option (Arg Nat)) :
    Except Err (Fld Rf × List (String × Val) × List Nat × List ℚ) :=
  match mode with
  | none => .error .valueError
  | some mode =>
    match w.meshes[m]? with
    | none => .error .keyError
    | some o =>
      (actions e w o).bind fun l =>
      (toField e w m ((l.head?.map Act.mode).getD mode)).bind fun f =>
        let x := MeshObj.convert e.pm mode (l.foldl (Act.run e.pm) f.1)
        (MeshObj.reshape o.nmesh nmesh).map fun n =>
          if n ≠ o.nmesh then (MeshObj.resample e.pm o.nmesh n x, f.2.1, n, o.box) else (x, f.2.1, f.2.2.1, f.2.2.2)

/-- `compute`: a new field, with new objects for its attributes, overwritten by those of the mesh (mesh.py 332-333). -/
def compute (e : Env Pos) (w : World Pos) (m : Nat) (mode : Option Mode) (nmesh : Option (Arg Nat)) : Except Err (World Pos × Nat) :=
  (computeData e w m mode nmesh).bind fun f =>
    match w.meshes[m]? with
    | none => .error .keyError
    | some o =>
      let r := MeshObj.alloc w.vals (fun _ => none) f.2.1
      .ok ({ w with fields := w.fields ++ [⟨f.1, f.2.2.1, f.2.2.2, r.2.update o.attrs⟩], vals := r.1 }, w.fields.length)

/-- `to_real_field(out=f, normalize)` into an existing field: the values are changed in place and `attrs` is a new dictionary (catalog.py 188-195, 374-379).
A view ignores both arguments. -/
def paintInto (e : Env Pos) (w : World Pos) (m f : Nat) (normalize : Bool) : Except Err (World Pos) :=
  match w.meshes[m]?, w.fields[f]? with
  | some o, some x =>
    match o.src, x.data with
    | .view _, _ => (toReal e w w.meshes.length m (fun _ => 0) true).map fun r =>
        let d := MeshObj.alloc w.vals (fun _ => none) r.2.1
        { w with fields := w.fields ++ [⟨.re r.1, r.2.2.1, r.2.2.2, d.2⟩], vals := d.1 }
    | .cat _ cols, .re old =>
      (windowOf e w o.attrs).bind fun _ =>
        if x.nmesh ≠ o.nmesh then .error .assertionError else
        (paintCat e w o cols old normalize).map fun r =>
          let d := MeshObj.alloc w.vals (fun _ => none) r.2
          { w with fields := w.fields.set f ⟨.re r.1, x.nmesh, x.box, d.2⟩, vals := d.1 }
    | .cat _ _, _ => (windowOf e w o.attrs).bind fun _ => .error .assertionError
  | _, _ => .error .typeError

/-! ## Programs -/

inductive Slot where
  | position | weight | value | selection
  deriving DecidableEq, Repr

def Cols.put (x : Cols Pos) (v : Option (Col Pos)) : Slot → Cols Pos
  | .position => { x with pos := v }
  | .weight => { x with weight := v }
  | .value => { x with value := v }
  | .selection => { x with sel := v }

inductive Setting where
  | interlaced | compensated
  deriving DecidableEq, Repr

def Setting.name : Setting → String
  | .interlaced => "interlaced"
  | .compensated => "compensated"

inductive Op (Pos : Type) where
  | catalog (size : Nat) (cols : String → Option (Col Pos))
  | setCol (c : Nat) (k : String) (x : Col Pos)
  | delCol (c : Nat) (k : String)
  | setCatAttr (c : Nat) (k : String) (v : Val)
  | writeCatAttr (c : Nat) (k : String) (l : List ℚ)
  | toMesh (c : Nat) (a : MeshArgs)
  | direct (c : Nat) (nmesh : Option (Arg Nat)) (box : Option (Arg ℚ)) (cols : Cols Pos) (interlaced compensated : Bool) (resampler : String)
  | assign (m : Nat) (s : Slot) (x : Option (Col Pos))
  | set (m : Nat) (s : Setting) (v : Val)
  | setResampler (m : Nat) (name : String)
  | setAttr (m : Nat) (k : String) (v : Val)
  | writeAttr (m : Nat) (k : String) (l : List ℚ)
  | view (m : Nat)
  | apply (m : Nat) (func : Func Rf) (kind mode : Option String)
  | compute (m : Nat) (mode : Option Mode) (nmesh : Option (Arg Nat))
  | paintInto (m f : Nat) (normalize : Bool)
  | writeFieldAttr (f : Nat) (k : String) (l : List ℚ)

/-- `attrs[k][:] = l`: only arrays can be written to. -/
def writeVal (w : World Pos) (d : Dict) (k : String) (l : List ℚ) : Except Err (World Pos) :=
  match d k with
  | none => .error .keyError
  | some r =>
    match w.vals[r]? with
    | some (.arr old) => if l.length = old.length then .ok { w with vals := w.vals.set r (.arr l) } else .error .valueError
    | _ => .error .typeError

/-- `mesh.attrs[k] = v`. -/
def putAttr (w : World Pos) (m : Nat) (o : Mesh Pos) (k : String) (v : Val) : World Pos :=
  { w with meshes := w.meshes.set m { o with attrs := o.attrs.set k w.vals.length }, vals := w.vals ++ [v] }

/-- One operation. Settings and columns assigned to a view are attributes of the Python object that nothing reads. -/
def step (e : Env Pos) (w : World Pos) : Op Pos → Except Err (World Pos)
  | .catalog n cols => .ok { w with cats := w.cats ++ [⟨cols, n, fun _ => none⟩] }
  | .setCol c k x =>
    match w.cats[c]? with
    | none => .error .keyError
    | some o => if x.length = o.size then .ok { w with cats := w.cats.set c { o with cols := fun y => if y = k then some x else o.cols y } } else .error .valueError
  | .delCol c k =>
    match w.cats[c]? with
    | none => .error .keyError
    | some o => if (o.cols k).isSome then .ok { w with cats := w.cats.set c { o with cols := fun y => if y = k then none else o.cols y } } else .error .valueError
  | .setCatAttr c k v =>
    match w.cats[c]? with
    | none => .error .keyError
    | some o => .ok { w with cats := w.cats.set c { o with attrs := o.attrs.set k w.vals.length }, vals := w.vals ++ [v] }
  | .writeCatAttr c k l =>
    match w.cats[c]? with
    | none => .error .keyError
    | some o => writeVal w o.attrs k l
  | .toMesh c a => (toMesh e w c a).map Prod.fst
  | .direct c n b cols i p r => (newCat w c n b cols i p r).map Prod.fst
  | .assign m s x =>
    match w.meshes[m]? with
    | none => .error .keyError
    | some o =>
      match o.src with
      | .view _ => .ok w
      | .cat c cols => .ok { w with meshes := w.meshes.set m { o with src := .cat c (cols.put x s) } }
  | .set m s v =>
    match w.meshes[m]? with
    | none => .error .keyError
    | some o =>
      match o.src with
      | .view _ => .ok w
      | .cat _ _ => .ok (putAttr w m o s.name v)
  | .setResampler m name =>
    match w.meshes[m]? with
    | none => .error .keyError
    | some o =>
      match o.src with
      | .view _ => .ok w
      | .cat _ _ => if name ∈ e.methods then .ok (putAttr w m o "resampler" (.text (e.lower name))) else .error .assertionError
  | .setAttr m k v =>
    match w.meshes[m]? with
    | none => .error .keyError
    | some o => .ok (putAttr w m o k v)
  | .writeAttr m k l =>
    match w.meshes[m]? with
    | none => .error .keyError
    | some o => writeVal w o.attrs k l
  | .view m => (view e w m).map Prod.fst
  | .apply m func kind mode => (apply e w m func kind mode).map Prod.fst
  | .compute m mode nmesh => (compute e w m mode nmesh).map Prod.fst
  | .paintInto m f normalize => paintInto e w m f normalize
  | .writeFieldAttr f k l =>
    match w.fields[f]? with
    | none => .error .keyError
    | some o => writeVal w o.attrs k l

/-- A failed operation changes nothing (simplification: painting into a field that fails at a later chunk leaves the earlier ones there). -/
def run (e : Env Pos) (w : World Pos) : List (Op Pos) → World Pos
  | [] => w
  | o :: l => run e ((step e w o).toOption.getD w) l

end NBK.CatMesh
