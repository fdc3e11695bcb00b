import Verif.Recon.Model

/-!
# `FFTRecon` objects in programs (nbodykit/algorithms/fftrecon.py 65-137, nbodykit/base/mesh.py 25-92, 195-310)

The reconstruction of given positions on a given mesh is that of `Verif.Recon.Model`. Here are the constructor, the objects with the catalogs that they refer to, their `attrs`, and views.
Catalogs are objects of all ranks, in a list; an object refers to them by number. Not modelled: the cast of the positions to `f4`, nested lists as `los`, resampling and actions of a mesh (other topics).
-/
namespace NBK.ReconObj
open NBK.Recon (V3 Scheme Field)

inductive Err where
  | assertion
  | keyError
  | valueError
  | zeroDivision
  /-- UnboundLocalError -/
  | unbound
  | indexError
  deriving DecidableEq, Repr

/-- What is passed as `data` or `ran`: a catalog or something else, its communicator, `attrs['Nmesh']` and `attrs['BoxSize']` (one number or several), the number of rows on the ranks
and the columns with three components. -/
structure Cat where
  isCatalog : Bool
  comm : Nat
  nmesh : Option (List Nat)
  box : Option (List ℚ)
  sizes : List Nat
  cols : String → Option (List (List V3))

/-- The arguments (fftrecon.py 65-76). Numbers for `Nmesh` and `BoxSize` are lists with one element. -/
structure Args where
  data : Nat
  ran : Nat
  nmesh : Option (List Nat)
  bias : ℚ
  f : ℚ
  los : List ℚ
  R : ℚ
  position : String
  revert : Bool
  scheme : String
  box : Option (List ℚ)

/-- `x[...] = v` for an array of three: one value for all, or three. -/
def bcast3 {α : Type} : List α → Except Err (Fin 3 → α)
  | [x] => .ok fun _ => x
  | [x, y, z] => .ok fun i => if i = 0 then x else if i = 1 then y else z
  | _ => .error .valueError

/-- The keys of `attrs` (fftrecon.py 117-122, base/mesh.py 54-55). -/
structure Attrs where
  bias : ℚ
  f : ℚ
  los : V3
  R : ℚ
  scheme : String
  revert : Bool
  nmesh : List Nat
  box : List ℚ

/-- An object: a reconstruction with its mesh, or a view of another object (base/mesh.py 79-92). -/
inductive Base where
  | recon (pmN : Fin 3 → Nat) (pmBox : V3) (position : String) (data ran : Nat)
  | view (of : Nat)

structure Obj where
  base : Base
  attrs : Attrs

/-- The schemes (fftrecon.py 78, 205-210). -/
def schemeOf : String → Option Scheme
  | "LGS" => some .LGS
  | "LF2" => some .LF2
  | "LRR" => some .LRR
  | _ => none

/-- `los /= (los ** 2).sum()` and the two assertions (fftrecon.py 97-101). -/
def losOf (los : List ℚ) : Except Err V3 :=
  match los with
  | [x, y, z] => if x ^ 2 + y ^ 2 + z ^ 2 = 0 then .error .assertion else .ok fun i => (if i = 0 then x else if i = 1 then y else z) / (x ^ 2 + y ^ 2 + z ^ 2)
  | _ => .error .assertion

/-- A value of the call, or that of the catalog, which must have one (fftrecon.py 89-95). -/
def orAttr {α : Type} : Option α → Option α → Except Err α
  | some v, _ => .ok v
  | none, some v => .ok v
  | none, none => .error .keyError

def require (b : Bool) : Except Err Unit := if b then .ok () else .error .assertion

/-- `FFTRecon(...)` (fftrecon.py 65-124). What pmesh does with a mesh or a box that is not positive is not modelled. -/
def new (cats : List Cat) (a : Args) : Except Err Obj := do
  require (schemeOf a.scheme).isSome
  let d ← (cats[a.data]?).elim (.error .assertion) .ok
  let r ← (cats[a.ran]?).elim (.error .assertion) .ok
  require d.isCatalog
  require r.isCatalog
  require (d.comm = r.comm)
  let n ← orAttr a.nmesh d.nmesh
  let n ← bcast3 n
  let b ← orAttr a.box d.box
  let los ← losOf a.los
  let b ← bcast3 b
  require (d.cols a.position).isSome
  require (r.cols a.position).isSome
  pure ⟨.recon n b a.position a.data a.ran, ⟨a.bias, a.f, los, a.R, a.scheme, a.revert, [n 0, n 1, n 2], [b 0, b 1, b 2]⟩⟩

/-- What pmesh gives for a mesh: cells, modes, window and transforms. -/
structure Mesh where
  n : Nat
  m : Nat
  share : V3 → Fin n → ℚ
  fft : Recon.Fft n m

/-- The environment: meshes, `exp(-0.5 * k2 * R**2)` and the option `paint_chunk_size`. -/
structure Env where
  mesh : (Fin 3 → Nat) → V3 → Mesh
  smooth : ℚ → ℚ → ℚ
  chunk : Nat

/-- The error of the painting. -/
def lift {α : Type} : Except Recon.Err α → Except Err α
  | .ok v => .ok v
  | .error .valueError => .error .valueError
  | .error .assertion => .error .assertion

/-- `cat[self.position]` (base/catalog.py 373-384): a column that is not there is a `KeyError`. -/
def column (cats : List Cat) (c : Nat) (name : String) : Except Err (List (List V3)) :=
  match cats[c]? with
  | none => .error .indexError
  | some c => (c.cols name).elim (.error .keyError) .ok

/-- `run` (fftrecon.py 134-137): the displacements with the `attrs` of this moment, then the fields. The kernel divides by the bias, which is a number of Python. An unknown scheme is noticed at the
end only, after the field of the randoms. -/
def field (e : Env) (cats : List Cat) (pmN : Fin 3 → Nat) (pmBox : V3) (position : String) (data ran : Nat) (a : Attrs) : Except Err (Option (List ℚ)) := do
  let mesh := e.mesh pmN pmBox
  let d ← column cats data position
  let _ ← lift (Recon.workWith mesh.share e.chunk d none)
  if a.bias = 0 then throw .zeroDivision
  let r ← column cats ran position
  let s ← lift (Recon.computeS mesh.share mesh.fft ⟨a.bias, a.f, a.los, a.revert⟩ (e.smooth a.R) e.chunk d r)
  match schemeOf a.scheme with
  | none => throw .unbound
  | some sch =>
    match s with
    | none => pure none
    | some (sd, sr) => do
      let fl ← lift (Recon.helperPaint mesh.share e.chunk sch d r sd sr)
      pure (fl.map List.ofFn)

/-- The programs. -/
structure St where
  cats : List Cat
  objs : List Obj

/-- `to_real_field` (base/mesh.py 196-198, fftrecon.py 131-132): a view asks its base. `fuel` bounds the chain of views; views are made of older objects only. -/
def realField (e : Env) (s : St) : Nat → Nat → Except Err (Option (List ℚ))
  | 0, _ => .error .indexError
  | fuel + 1, o =>
    match s.objs[o]? with
    | none => .error .indexError
    | some ⟨.recon n b p d r, a⟩ => field e s.cats n b p d r a
    | some ⟨.view of, _⟩ => realField e s fuel of

/-- Setting a key of `attrs` of an object. -/
inductive Key where
  | bias (q : ℚ) | f (q : ℚ) | los (v : V3) | R (q : ℚ) | scheme (s : String) | revert (b : Bool) | nmesh (l : List Nat) | box (l : List ℚ)

def Attrs.set (a : Attrs) : Key → Attrs
  | .bias q => { a with bias := q }
  | .f q => { a with f := q }
  | .los v => { a with los := v }
  | .R q => { a with R := q }
  | .scheme s => { a with scheme := s }
  | .revert b => { a with revert := b }
  | .nmesh l => { a with nmesh := l }
  | .box l => { a with box := l }

inductive Op where
  | make (a : Args)
  | view (o : Nat)
  | setAttr (o : Nat) (k : Key)
  | setCol (c : Nat) (name : String) (v : List (List V3))
  | delCol (c : Nat) (name : String)
  | setBox (c : Nat) (v : List ℚ)
  | setNmesh (c : Nat) (v : List Nat)
  | compute (o : Nat)

/-- What an operation gives. `compute` returns the field with a copy of the `attrs` of the object (base/mesh.py 299-300). -/
inductive Out where
  | unit
  | error (e : Err)
  | field (v : Option (List ℚ)) (a : Attrs)

def modCat (s : St) (c : Nat) (g : Cat → Except Err Cat) : St × Out :=
  match s.cats[c]? with
  | none => (s, .error .indexError)
  | some x => match g x with
    | .error e => (s, .error e)
    | .ok y => ({ s with cats := s.cats.set c y }, .unit)

/-- One operation. -/
def step (e : Env) (s : St) : Op → St × Out
  | .make a => match new s.cats a with
    | .error er => (s, .error er)
    | .ok o => ({ s with objs := s.objs ++ [o] }, .unit)
  | .view o => match s.objs[o]? with
    | none => (s, .error .indexError)
    | some x => ({ s with objs := s.objs ++ [⟨.view o, x.attrs⟩] }, .unit)
  | .setAttr o k => match s.objs[o]? with
    | none => (s, .error .indexError)
    | some x => ({ s with objs := s.objs.set o { x with attrs := x.attrs.set k } }, .unit)
  | .setCol c n v => modCat s c fun x => if v.map List.length = x.sizes then .ok { x with cols := fun m => if m = n then some v else x.cols m } else .error .valueError
  | .delCol c n => modCat s c fun x => if (x.cols n).isSome then .ok { x with cols := fun m => if m = n then none else x.cols m } else .error .valueError
  | .setBox c v => modCat s c fun x => .ok { x with box := some v }
  | .setNmesh c v => modCat s c fun x => .ok { x with nmesh := some v }
  | .compute o => match s.objs[o]? with
    | none => (s, .error .indexError)
    | some x => match realField e s (o + 1) o with
      | .error er => (s, .error er)
      | .ok v => (s, .field v x.attrs)

def run (e : Env) (s : St) (l : List Op) : St := l.foldl (fun s o => (step e s o).1) s

end NBK.ReconObj
