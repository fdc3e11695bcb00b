/-!
# Model of mesh sources, their views and actions (nbodykit/base/mesh.py, source/mesh)

Fields are opaque: a configuration-space field of type `R` or a Fourier-space field of type `C`, with transforms `r2c` and `c2r`.
Fields live in buffers, since `apply` and the transforms work in place (`out=Ellipsis`).
Every mesh class of nbodykit implements either `to_real_field` or `to_complex_field`; this is the kind of its buffer.
Resampling to another `Nmesh`, the `kind` of an action and the attrs are not modelled.
-/
namespace NBK.Mesh
variable {R C : Type}

inductive Mode where
  | real | complex
  deriving DecidableEq, Repr

/-- `RealField` or `ComplexField`. -/
inductive Fld (R C : Type) where
  | re (x : R)
  | co (y : C)
  deriving DecidableEq, Repr

/-- An action `(mode, func, kind)` (mesh.py 164-176). -/
inductive Act (R C : Type) where
  | re (f : R → R)
  | co (f : C → C)

def Act.mode : Act R C → Mode
  | .re _ => .real
  | .co _ => .complex

/-- A mesh object: a source holding a field, with the compensation filters of `CatalogMesh` (empty if not compensated), or a
view of another mesh (mesh.py 82-94); `own` is the list `_actions`. -/
inductive Obj (R C : Type) where
  | source (buf : Nat) (comp : List (Act R C)) (own : List (Act R C))
  | view (base : Nat) (own : List (Act R C))

/-- The heap: field buffers and mesh objects. -/
structure Heap (R C : Type) where
  bufs : List (Fld R C)
  objs : List (Obj R C)

inductive Err where
  | assertion | badHandle
  deriving DecidableEq, Repr

/-- The property `actions`: mesh.py 109-116, and `CatalogMesh.actions` with the compensation first (catalog.py 405-414). -/
def actionsOf : Obj R C → List (Act R C)
  | .source _ comp own => comp ++ own
  | .view _ own => own

/-- `MeshSource.apply` (mesh.py 118-176) with `view` and `__finalize__` (61-94): a new object whose action list is a copy of
the actions, with the new one appended. -/
def apply (h : Heap R C) (m : Nat) (a : Act R C) : Except Err (Heap R C × Nat) :=
  match h.objs[m]? with
  | none => .error .badHandle
  | some o => .ok (⟨h.bufs, h.objs ++ [.view m (actionsOf o ++ [a])]⟩, h.objs.length)

/-- The buffer of the source behind a chain of views (`to_real_field`/`to_complex_field` of a view ask the base, mesh.py
184-202); `fuel` bounds the length of the chain. -/
def sourceBuf (objs : List (Obj R C)) : Nat → Nat → Option Nat
  | 0, _ => none
  | fuel + 1, m =>
    match objs[m]? with
    | none => none
    | some (.source b _ _) => some b
    | some (.view base _) => sourceBuf objs fuel base

/-- Convert the field in place (`r2c(out=Ellipsis)`, `c2r(out=Ellipsis)`) if it has the other mode (mesh.py 296-303). -/
def convert (r2c : R → C) (c2r : C → R) (mode : Mode) : Fld R C → Fld R C
  | .re x => match mode with
    | .real => .re x
    | .complex => .co (r2c x)
  | .co y => match mode with
    | .real => .re (c2r y)
    | .complex => .co y

/-- `to_field(mode)` (mesh.py 204-244): the source returns a copy of its field, or `NotImplemented`, in which case the other
kind is requested and transformed. The copy gets a new buffer, whose number is returned. -/
def toField (r2c : R → C) (c2r : C → R) (h : Heap R C) (m : Nat) (mode : Mode) : Except Err (Heap R C × Nat) :=
  match sourceBuf h.objs (h.objs.length + 1) m with
  | none => .error .badHandle
  | some b =>
    match h.bufs[b]? with
    | none => .error .assertion
    | some f => .ok (⟨h.bufs ++ [convert r2c c2r mode f], h.objs⟩, h.bufs.length)

/-- `var.apply(func, out=Ellipsis)`; the field has the right mode already. -/
def applyFld : Act R C → Fld R C → Fld R C
  | .re f, .re x => .re (f x)
  | .co f, .co y => .co (f y)
  | _, f => f

/-- One turn of the loop of `_paint_XXX` (mesh.py 294-311) on the buffer `v`. -/
def actOn (r2c : R → C) (c2r : C → R) (v : Nat) (bufs : List (Fld R C)) (a : Act R C) : List (Fld R C) :=
  match bufs[v]? with
  | none => bufs
  | some f => bufs.set v (applyFld a (convert r2c c2r a.mode f))

/-- `actions[0][0]` of the actions followed by the dummy action `(mode,)` (mesh.py 288-291). -/
def firstMode (acts : List (Act R C)) (mode : Mode) : Mode :=
  match acts with
  | [] => mode
  | a :: _ => a.mode

/-- `compute(mode)` = `_paint_XXX` (mesh.py 246-338): field of the mode of the first action (the dummy action at the end gives
the requested mode), then all actions in order, then the requested mode. -/
def compute (r2c : R → C) (c2r : C → R) (h : Heap R C) (m : Nat) (mode : Mode) : Except Err (Heap R C × Nat) :=
  match h.objs[m]? with
  | none => .error .badHandle
  | some o =>
    let acts := actionsOf o
    match toField r2c c2r h m (firstMode acts mode) with
    | .error e => .error e
    | .ok (h, v) =>
      let bufs := acts.foldl (actOn r2c c2r v) h.bufs
      match bufs[v]? with
      | none => .error .assertion
      | some f => .ok (⟨bufs.set v (convert r2c c2r mode f), h.objs⟩, v)

/-- A new source (`FieldMesh`, `ArrayMesh`, `CatalogMesh`, ...). -/
def newSource (h : Heap R C) (f : Fld R C) (comp : List (Act R C)) : Heap R C × Nat :=
  (⟨h.bufs ++ [f], h.objs ++ [.source h.bufs.length comp []]⟩, h.objs.length)

/-- What a program may do with meshes. -/
inductive Op (R C : Type) where
  | new (f : Fld R C) (comp : List (Act R C))
  | apply (m : Nat) (a : Act R C)
  | compute (m : Nat) (mode : Mode)

/-- Run one operation; a failed one changes nothing. -/
def stepOp (r2c : R → C) (c2r : C → R) (h : Heap R C) : Op R C → Heap R C
  | .new f comp => (newSource h f comp).1
  | .apply m a => match apply h m a with
    | .ok r => r.1
    | .error _ => h
  | .compute m mode => match compute r2c c2r h m mode with
    | .ok r => r.1
    | .error _ => h

def run (r2c : R → C) (c2r : C → R) (ops : List (Op R C)) : Heap R C :=
  ops.foldl (stepOp r2c c2r) ⟨[], []⟩

end NBK.Mesh
