import Verif.Json.Model

/-!
# Model of the attributes written by `save` and read back (base/catalog.py, base/mesh.py, io/bigfile.py, source/mesh/bigfile.py)

The attributes of a bigfile block are texts and flat arrays of plain items, without a shape: `bb.attrs[key] = value` stores a
`str` as it is, ravels what numpy makes a plain array of, and raises ValueError for what becomes an array of objects.
Python's `json` is a codec between trees (`Json.J`) and texts.  A text that is not tagged is read as an array without
dimensions that holds the text; the model does not distinguish it from the text.  Lists of texts are not modelled.
-/
namespace NBK.Attrs
open NBK.Json (V J Sc enc dec)

/-- Python exceptions raised by the modelled code; `jsonError` is any error of `json.loads`. -/
inductive Err where
  | valueError | jsonError
  deriving DecidableEq, Repr

abbrev Text := List Char

/-- A value in `attrs`: what numpy makes a plain array of (numbers have the shape `[]`), a text, or another object. -/
inductive Val where
  | arr (dt : String) (shape : List Nat) (data : List Sc)
  | text (s : Text)
  | obj (v : V)

/-- A value on disk. -/
inductive Stored where
  | arr (dt : String) (data : List Sc)
  | text (s : Text)
  deriving DecidableEq, Repr

/-- Python's `json`: trees to texts and back; `none` is a text that is not JSON. -/
structure Codec where
  print : J → Text
  parse : Text → Option J

/-- A Python dict, in the order of insertion. -/
abbrev Dict (β : Type) := List (String × β)

/-- `d[k] = v` -/
def put {β : Type} (d : Dict β) (k : String) (v : β) : Dict β :=
  if (d.lookup k).isSome then d.map fun p => if p.1 = k then (k, v) else p else d ++ [(k, v)]

/-- `d.update(e)` -/
def update {β : Type} (d e : Dict β) : Dict β := e.foldl (fun d p => put d p.1 p.2) d

/-- The mark of a text that holds JSON. -/
def tag : Text := ['j', 's', 'o', 'n', ':', '/', '/']

/-- `bb.attrs[key] = value` of bigfile. -/
def setAttr : Val → Except Err Stored
  | .arr dt _ data => .ok (.arr dt data)
  | .text s => .ok (.text s)
  | .obj _ => .error .valueError

/-- `'json://' + json.dumps(value, cls=JSONEncoder)`; `dumps` is only called for values that are not plain. -/
def dumps (c : Codec) : Val → Except Err Text
  | .obj v => match enc v with
    | .ok j => .ok (tag ++ c.print j)
    | .error _ => .error .valueError
  | _ => .error .valueError

/-- One attribute in `CatalogSource.save` (catalog.py 676-685). -/
def storeCat (c : Codec) (v : Val) : Except Err Stored :=
  match setAttr v with
  | .ok s => .ok s
  | .error _ => match dumps c v with
    | .ok t => setAttr (.text t)
    | .error _ => .error .valueError

/-- The header in `CatalogSource.save` (catalog.py 670-685): `old` are the attributes of the block if it is there already. -/
def saveCat (c : Codec) (old : Dict Stored) (attrs : Dict Val) : Except Err (Dict Stored) :=
  attrs.foldlM (fun d p => do pure (put d p.1 (← storeCat c p.2))) old

/-- One attribute in `MeshSource.save` (mesh.py 401-412); the second part are the names in the warnings. -/
def storeMesh (c : Codec) (r : Dict Stored × List String) (p : String × Val) : Dict Stored × List String :=
  if (r.1.lookup p.1).isSome then r
  else match storeCat c p.2 with
    | .ok s => (put r.1 p.1 s, r.2)
    | .error _ => (r.1, r.2 ++ [p.1])

/-- Items of an array of integers or floats. -/
def ints (l : List Nat) : List Sc := l.map fun (n : Nat) => .int n

/-- The attributes in `MeshSource.save` (mesh.py 391-412): first those of the mesh itself, then those of the field. -/
def saveMesh (c : Codec) (cshape nmesh : List Nat) (box : List Sc) (attrs : Dict Val) : Dict Stored × List String :=
  attrs.foldl (storeMesh c)
    (put (put (put [] "ndarray.shape" (.arr "<i8" (ints cshape))) "BoxSize" (.arr "<f8" box)) "Nmesh" (.arr "<i8" (ints nmesh)), [])

/-- `json.loads(v[7:], cls=JSONDecoder)` (io/bigfile.py 85, mesh/bigfile.py 48). -/
def loads (c : Codec) (s : Text) : Except Err Val :=
  match c.parse (s.drop 7) with
  | none => .error .jsonError
  | some j => match dec j with
    | .ok v => .ok (.obj v)
    | .error _ => .error .jsonError

/-- An attribute read by `BigFile` (io/bigfile.py 82-88): `numpy.array` of the flat array. -/
def readFile (c : Codec) : Stored → Except Err Val
  | .text s => if tag.isPrefixOf s then loads c s else .ok (.text s)
  | .arr dt data => .ok (.arr dt [data.length] data)

/-- An attribute read by `BigFileMesh` (mesh/bigfile.py 45-50): `numpy.squeeze` of the flat array. -/
def readMesh (c : Codec) : Stored → Except Err Val
  | .text s => if tag.isPrefixOf s then loads c s else .ok (.text s)
  | .arr dt data => .ok (.arr dt (if data.length = 1 then [] else [data.length]) data)

/-- A loop `for k in attrs: self.attrs[k] = read(attrs[k])`. -/
def readInto (read : Stored → Except Err Val) (d : Dict Val) (st : Dict Stored) : Except Err (Dict Val) :=
  st.foldlM (fun d p => do pure (put d p.1 (← read p.2))) d

/-- The blocks searched for attributes (`_find_headers`, io/bigfile.py 93-108): the given headers that are blocks of the
file, without repetitions, then the dataset. `none` is the default. -/
def findHeaders (header : Option (List String)) (blocks : List String) (dataset : String) : List String :=
  ((header.getD ["Header", "header", "."]).foldl
    (fun r h => if h ∈ blocks then (if h ∈ r then r else r ++ [h]) else r) []) ++ [dataset ++ "/."]

/-- `BigFile.attrs` (io/bigfile.py 75-88): `file` gives the attributes of a block. -/
def loadFile (c : Codec) (file : String → Dict Stored) (headers : List String) : Except Err (Dict Val) :=
  headers.foldlM (fun d h => readInto (readFile c) d (file h)) []

/-- The attributes of a `BigFileCatalog(path, attrs=user)` (catalog/file.py 65, 186). -/
def loadCat (c : Codec) (file : String → Dict Stored) (headers : List String) (user : Dict Val) : Except Err (Dict Val) := do
  pure (update (update [] (← loadFile c file headers)) user)

/-- The attributes of a `BigFileMesh(path, dataset, **user)` (mesh/bigfile.py 43-50) before `MeshSource.__init__`. -/
def loadMesh (c : Codec) (st : Dict Stored) (user : Dict Val) : Except Err (Dict Val) :=
  readInto (readMesh c) (update [] user) st

/-- The number of dimensions of the mesh made by `MeshSource.__init__` from the attribute `Nmesh` (mesh.py 41-45). -/
def meshDims : Val → Option Nat
  | .arr _ [] _ => some 3
  | .arr _ (n :: _) _ => some n
  | _ => none

end NBK.Attrs
