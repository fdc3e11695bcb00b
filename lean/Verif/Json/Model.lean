import Mathlib.Algebra.BigOperators.Group.List.Basic
import Mathlib.Data.Rat.Defs

/-!
# Model of `JSONEncoder` and `JSONDecoder` (nbodykit/utils.py 381-489)

Python's `json` module is a codec of trees: `J` is the tree of the text.  It writes numbers so that reading gives the
same number, writes tuples as lists, and calls `object_hook` on every object from the inside out.  Keys of dictionaries
are strings.  Numbers in an array are representable in its dtype; signed zeros are not distinguished.
-/
namespace NBK.Json

/-- Python exceptions raised by the modelled code. -/
inductive Err where
  | typeError | keyError | assertionError | valueError
  deriving DecidableEq, Repr

/-- A float. -/
inductive Fl where
  | num (q : ℚ) | nan | inf (neg : Bool)
  deriving DecidableEq, Repr

/-- The sum of two floats. -/
def Fl.add : Fl → Fl → Fl
  | .num a, .num b => .num (a + b)
  | .nan, _ => .nan
  | _, .nan => .nan
  | .inf a, .inf b => if a = b then .inf a else .nan
  | .inf a, .num _ => .inf a
  | .num _, .inf b => .inf b

/-- Zero times a float. -/
def Fl.zeroMul : Fl → Fl
  | .num _ => .num 0
  | _ => .nan

/-- A scalar of an array, as `tolist()` gives it. -/
inductive Sc where
  | bool (b : Bool) | int (i : Int) | flt (x : Fl) | str (s : String) | cplx (re im : Fl) | bytes (s : String)
  deriving DecidableEq, Repr

/-- The type of a field of a structured dtype: a plain dtype (`dtype.str`) or another structured one. -/
inductive FTy where
  | base (s : String) | nested (fs : List (String × String))
  deriving DecidableEq, Repr

/-- An item of `dtype.descr`: name, type and the shape of a subarray. Padding has an empty name. -/
structure Field where
  name : String
  ty : FTy
  sub : Option (List Nat)
  deriving DecidableEq, Repr

/-- Python values. -/
inductive V where
  | none | bool (b : Bool) | int (i : Int) | flt (x : Fl) | str (s : String)
  | cplx (re im : Fl)
  | list (l : List V) | tup (l : List V) | dict (d : List (String × V))
  /-- numpy scalars, with their dtype -/
  | npint (dt : String) (i : Int) | npflt (dt : String) (x : Fl)
  /-- an array: `dtype.str`, shape and the items in C order -/
  | arr (dt : String) (shape : List Nat) (data : List Sc)
  /-- a structured array: `dtype.descr`, shape and the rows in C order, every row with the (flat) values of its named
  fields -/
  | sarr (fs : List Field) (shape : List Nat) (rows : List (List (List Sc)))
  /-- `Quantity(value, unit)` -/
  | quant (value : V) (unit : String)
  /-- a `Cosmology` and its parameters -/
  | cosmo (pars : List (String × V))

/-- The tree of a JSON text. -/
inductive J where
  | null | bool (b : Bool) | int (i : Int) | flt (x : Fl) | str (s : String)
  | arr (l : List J) | obj (d : List (String × J))

/-- The number of items of a shape. -/
def size (shape : List Nat) : Nat := shape.prod

/-- `tolist()`: nested lists over a flat array in C order. -/
def nest : List Nat → List J → J
  | [], xs => xs.headD .null
  | n :: sh, xs => .arr ((List.range n).map fun i => nest sh ((xs.drop (i * size sh)).take (size sh)))

/-- The encoder on a scalar of `tolist()`; complex values go through `default` (utils.py 410-411); bytes have no
encoding. -/
def encSc : Sc → Except Err J
  | .bool b => .ok (.bool b)
  | .int i => .ok (.int i)
  | .flt x => .ok (.flt x)
  | .str s => .ok (.str s)
  | .cplx re im => .ok (.obj [("__complex__", .arr [.flt re, .flt im])])
  | .bytes _ => .error .typeError

/-- The type of a field in `dtype.descr`. -/
def encTy : FTy → J
  | .base s => .str s
  | .nested fs => .arr (fs.map fun p => .arr [.str p.1, .str p.2])

/-- An item of `dtype.descr` as a JSON list. -/
def encField (f : Field) : J :=
  match f.sub with
  | .none => .arr [.str f.name, encTy f.ty]
  | .some sh => .arr [.str f.name, encTy f.ty, .arr (sh.map fun (n : Nat) => .int n)]

/-- One row of a structured array (`tolist()` gives a tuple, nested lists for subarrays). Only the named fields have
values. -/
def encRow (fs : List Field) (row : List (List Sc)) : Except Err J := do
  let vals ← ((fs.filter fun f => f.name ≠ "").zip row).mapM fun p => do
    let items ← p.2.mapM encSc
    pure (nest (p.1.sub.getD []) items)
  pure (.arr vals)

/-- A shape as a JSON list. -/
def encShape (shape : List Nat) : J := .arr (shape.map fun (n : Nat) => .int n)

/-- The dictionary of an array (utils.py 414-422). -/
def encArr (dt : String) (shape : List Nat) (data : List Sc) : Except Err (List (String × J)) := do
  let items ← data.mapM encSc
  pure [("__dtype__", .str dt), ("__shape__", encShape shape), ("__data__", nest shape items)]

/-- The dictionary of a structured array (utils.py 414-422). -/
def encRec (fs : List Field) (shape : List Nat) (rows : List (List (List Sc))) : Except Err (List (String × J)) := do
  let items ← rows.mapM (encRow fs)
  pure [("__dtype__", .arr (fs.map encField)), ("__shape__", encShape shape), ("__data__", nest shape items)]

/-- The dictionary of a quantity with value `v`, which is encoded as `j` (utils.py 395-407): an array of more than one
item puts its dtype, shape and data beside the unit, another value is stored under `__data__`. -/
def quantObj (v : V) (u : String) (j : J) : J :=
  match v, j with
  | .arr _ shape _, .obj d => if size shape > 1 then .obj (("__unit__", .str u) :: d)
      else .obj [("__unit__", .str u), ("__data__", j)]
  | _, j => .obj [("__unit__", .str u), ("__data__", j)]

mutual
/-- `json.dumps(value, cls=JSONEncoder)` (utils.py 386-431). -/
def enc : V → Except Err J
  | .none => .ok .null
  | .bool b => .ok (.bool b)
  | .int i => .ok (.int i)
  | .flt x => .ok (.flt x)
  | .str s => .ok (.str s)
  | .cplx re im => .ok (.obj [("__complex__", .arr [.flt re, .flt im])])
  | .list l => do pure (.arr (← encL l))
  | .tup l => do pure (.arr (← encL l))
  | .dict d => do pure (.obj (← encD d))
  | .npint _ i => .ok (.int i)
  | .npflt _ x => .ok (.flt x)
  | .arr dt shape data => do pure (.obj (← encArr dt shape data))
  | .sarr fs shape rows => do pure (.obj (← encRec fs shape rows))
  | .cosmo pars => do pure (.obj [("__cosmo__", .obj (← encD pars))])
  | .quant v u => do pure (quantObj v u (← enc v))
def encL : List V → Except Err (List J)
  | [] => .ok []
  | v :: l => do
    let j ← enc v
    let js ← encL l
    pure (j :: js)
def encD : List (String × V) → Except Err (List (String × J))
  | [] => .ok []
  | (k, v) :: l => do
    let j ← enc v
    let js ← encD l
    pure ((k, j) :: js)
end

/-! ### Decoding -/

/-- The kinds of plain dtypes in the model, from the character after the byte order in `dtype.str`. -/
inductive Kind where
  | bool | int | flt | cplx | str | bytes
  deriving DecidableEq, Repr

/-- The kind of a `dtype.str`; none for an invalid one. -/
def kind (dt : String) : Option Kind :=
  match dt.toList with
  | c :: 'b' :: _ => if c = '|' then some .bool else .none
  | c :: 'i' :: _ => if c = '<' ∨ c = '>' ∨ c = '|' then some .int else .none
  | c :: 'u' :: _ => if c = '<' ∨ c = '>' ∨ c = '|' then some .int else .none
  | c :: 'f' :: _ => if c = '<' ∨ c = '>' then some .flt else .none
  | c :: 'c' :: _ => if c = '<' ∨ c = '>' then some .cplx else .none
  | c :: 'U' :: _ => if c = '<' ∨ c = '>' then some .str else .none
  | c :: 'S' :: _ => if c = '|' then some .bytes else .none
  | _ => .none

/-- Conversion of one item by `numpy.array(..., dtype)`. -/
def cast (dt : String) (v : V) : Except Err Sc :=
  match kind dt, v with
  | some .bool, .bool b => .ok (.bool b)
  | some .int, .int i => .ok (.int i)
  | some .flt, .flt x => .ok (.flt x)
  | some .flt, .int i => .ok (.flt (.num i))
  | some .cplx, .cplx re im => .ok (.cplx re im)
  | some .cplx, .flt x => .ok (.cplx x (.num 0))
  | some .str, .str s => .ok (.str s)
  | _, _ => .error .typeError

/-- The shape that `numpy.array` finds in nested lists (tuples are items of structured arrays here). -/
def shapeOf : V → List Nat
  | .list [] => [0]
  | .list (v :: l) => (l.length + 1) :: shapeOf v
  | _ => []

/-- The items of nested lists of a given shape; an error for ragged lists. -/
def itemsOf : List Nat → V → Except Err (List V)
  | [], .list _ => .error .valueError
  | [], v => .ok [v]
  | n :: sh, .list l => if l.length = n then do pure (← l.mapM (itemsOf sh)).flatten else .error .valueError
  | _ :: _, _ => .error .valueError

/-- `numpy.array(a, dtype)` for a plain dtype. -/
def mkArr (dt : String) (a : V) : Except Err V :=
  match kind dt with
  | .none => .error .typeError
  | some _ => do
    let items ← itemsOf (shapeOf a) a
    pure (.arr dt (shapeOf a) (← items.mapM (cast dt)))

/-- One item of a structured array from a tuple. A subarray must have the right shape (numpy would also broadcast). -/
def mkRow (fs : List (String × String × Option (List Nat))) (v : V) : Except Err (List (List Sc)) :=
  match v with
  | .tup l =>
    if l.length = fs.length then
      (fs.zip l).mapM fun p => do
        let items ← itemsOf (p.1.2.2.getD []) p.2
        items.mapM (cast p.1.2.1)
    else .error .valueError
  | _ => .error .typeError

/-- `numpy.dtype(fs)` of a list of fields: an unnamed field gets the name `f` and its number; the types must be valid. -/
def mkFields (fs : List (String × String × Option (List Nat))) : Except Err (List Field) :=
  fs.zipIdx.mapM fun p =>
    match kind p.1.2.1 with
    | .none => .error .typeError
    | some _ => .ok ⟨if p.1.1 = "" then "f" ++ toString p.2 else p.1.1, .base p.1.2.1, p.1.2.2⟩

/-- `numpy.array(a, dtype)` for a structured dtype. -/
def mkRec (fs : List (String × String × Option (List Nat))) (a : V) : Except Err V := do
  let fields ← mkFields fs
  let items ← itemsOf (shapeOf a) a
  pure (.sarr fields (shapeOf a) (← items.mapM (mkRow fs)))

/-- `str(x)` of the first two items of a field; the text of a list is not a valid dtype and is not modelled further. -/
def pyStr : V → String
  | .str s => s
  | _ => "[...]"

/-- A dimension read from JSON. -/
def decDim : V → Except Err Nat
  | .int (.ofNat n) => .ok n
  | _ => .error .typeError

/-- A shape read from JSON. -/
def decShape : V → Except Err (List Nat)
  | .list l => l.mapM decDim
  | .int (.ofNat n) => .ok [n]
  | _ => .error .typeError

/-- `fixdtype` on a list (utils.py 440-449): fields of another length are left out. -/
def fixdtype : List V → Except Err (List (String × String × Option (List Nat)))
  | [] => .ok []
  | .list [a, b] :: l => do
    let r ← fixdtype l
    pure ((pyStr a, pyStr b, Option.none) :: r)
  | .list [a, b, c] :: l => do
    let sh ← decShape c
    let r ← fixdtype l
    pure ((pyStr a, pyStr b, some sh) :: r)
  | _ :: l => fixdtype l

/-- `fixdata` for a structured dtype with `nf` fields (utils.py 451-461). -/
def fixdata (nf : Nat) : Nat → V → Except Err V
  | N + 1, .list l => do pure (.list (← l.mapM (fixdata nf N)))
  | _ + 1, _ => .error .typeError
  | 0, .list l => if l.length = nf then .ok (.tup l) else .error .assertionError
  | 0, _ => .error .typeError

/-- `value[key]` -/
def get (d : List (String × V)) (k : String) : Except Err V :=
  match d.lookup k with
  | .none => .error .keyError
  | some v => .ok v

/-- `Quantity(d, unit)`: a number or an array of numbers. -/
def mkQuant (v : V) (u : String) : Except Err V :=
  match v with
  | .int i => .ok (.quant (.flt (.num i)) u)
  | .flt x => .ok (.quant (.flt x) u)
  | .arr dt shape data => if kind dt = some .flt ∨ kind dt = some .cplx then .ok (.quant (.arr dt shape data) u)
      else .error .typeError
  | _ => .error .typeError

/-- `len(shape)` -/
def lenOf : V → Except Err Nat
  | .list l => .ok l.length
  | _ => .error .typeError

/-- The array part of the hook (utils.py 464-468). -/
def hookArr (d : List (String × V)) : Except Err V := do
  let sh ← get d "__shape__"
  let n ← lenOf sh
  let data ← get d "__data__"
  match d.lookup "__dtype__" with
  | some (.list fs) => do
    let fs ← fixdtype fs
    mkRec fs (← fixdata fs.length n data)
  | some (.str dt) => mkArr dt data
  | _ => .error .typeError

/-- `d = value['__data__']` if there was no dtype (utils.py 471-472) -/
def orData (d : List (String × V)) : Option V → Except Err V
  | some v => .ok v
  | .none => get d "__data__"

/-- The part of the hook up to the unit: none if there is neither a dtype nor a unit (utils.py 463-473). -/
def hookUnit (d : List (String × V)) : Except Err (Option V) := do
  let a ← if (d.lookup "__dtype__").isSome then (do pure (some (← hookArr d))) else Except.ok Option.none
  match d.lookup "__unit__" with
  | .none => pure a
  | some (.str u) => do
    let v ← orData d a
    pure (some (← mkQuant v u))
  | some _ => .error .typeError

/-- `real + 1j * imag` (utils.py 481-483): the product has the real part `0 * imag`. -/
def mkCplx (re im : Fl) : V := .cplx (re.add im.zeroMul) im

/-- A number as a float. -/
def toFl : V → Option Fl
  | .flt x => some x
  | .int i => some (.num i)
  | _ => .none

/-- The cosmology part of the hook (utils.py 475-476); `Cosmology.from_dict` keeps the parameters. -/
def orCosmo (a : Option V) : Option V → Except Err (Option V)
  | .none => .ok a
  | some (.dict p) => .ok (some (.cosmo p))
  | some _ => .error .typeError

/-- The complex part of the hook (utils.py 481-485). -/
def orCplx (d : List (String × V)) : Option V → Except Err V
  | .none => .ok (.dict d)
  | some (.list [x, y]) =>
    match toFl x, toFl y with
    | some re, some im => .ok (mkCplx re im)
    | _, _ => .error .typeError
  | some _ => .error .valueError

/-- `JSONDecoder.hook` (utils.py 439-485). -/
def hook (d : List (String × V)) : Except Err V := do
  let a ← hookUnit d
  let a ← orCosmo a (d.lookup "__cosmo__")
  match a with
  | some v => pure v
  | .none => orCplx d (d.lookup "__complex__")

mutual
/-- `json.loads(text, cls=JSONDecoder)`. -/
def dec : J → Except Err V
  | .null => .ok .none
  | .bool b => .ok (.bool b)
  | .int i => .ok (.int i)
  | .flt x => .ok (.flt x)
  | .str s => .ok (.str s)
  | .arr l => do pure (.list (← decL l))
  | .obj d => do hook (← decD d)
def decL : List J → Except Err (List V)
  | [] => .ok []
  | j :: l => do
    let v ← dec j
    let vs ← decL l
    pure (v :: vs)
def decD : List (String × J) → Except Err (List (String × V))
  | [] => .ok []
  | (k, j) :: l => do
    let v ← dec j
    let vs ← decD l
    pure ((k, v) :: vs)
end

/-- Writing and reading a value. -/
def roundtrip (v : V) : Except Err V := do dec (← enc v)

end NBK.Json
