import Mathlib.Data.List.Dedup

/-!
# Model of HDF files (nbodykit/io/hdf.py)

A path is the list of its names.  A file is the list of its groups and datasets with their paths, in the order visited by h5py.
A dataset is a plain array (the rows, of any shape) or a structured array with named fields.  Rows are opaque; dtypes are not
modelled.  A dict keyed by paths is a list, as the paths are distinct.
-/
namespace NBK.Hdf

/-- Python exceptions raised by the modelled code. -/
inductive Err where
  | valueError | keyError | typeError
  deriving DecidableEq, Repr

/-- A name between slashes. -/
abbrev Name := List Char

/-- A path as its names. -/
abbrev Path := List Name

/-- An object of the file. -/
inductive Node (α : Type) where
  | group
  | plain (rows : List α)
  | table (size : Nat) (fields : List (Name × List α))
  deriving DecidableEq

/-- Attributes of an object. -/
abbrev AttrDict := List (Name × Nat)

/-- A value of `HDFFile.attrs`: an attribute of the header or all the attributes of a dataset. -/
inductive Attr where
  | value (v : Nat)
  | dict (d : AttrDict)
  deriving DecidableEq

/-- An object with its path and attributes. -/
structure Obj (α : Type) where
  path : Path
  node : Node α
  attrs : AttrDict
  deriving DecidableEq

/-- The objects below the root of the file. -/
abbrev File (α : Type) := List (Obj α)

variable {α : Type}

/-- `ff[path]`; the root is a group. -/
def lookup (ff : File α) (p : Path) : Option (Node α) :=
  if p = [] then some .group else (ff.find? fun o => o.path = p).map (·.node)

/-- The attributes of `ff[path]`; those of the root are not modelled. -/
def attrsOf (ff : File α) (p : Path) : AttrDict := ((ff.find? fun o => o.path = p).map (·.attrs)).getD []

/-- `ColumnInfo` with the name of the column (hdf.py 10). -/
structure Info where
  col : Path
  size : Nat
  dset : Path
  deriving DecidableEq

/-- `find_datasets(info, attrs, name, obj)` (hdf.py 12-41): the columns of an object. -/
def findDatasets (name : Path) : Node α → List Info
  | .group => []
  | .plain rows => [⟨name, rows.length, name⟩]
  | .table size fields => fields.map fun f => ⟨name ++ [f.1], size, name⟩

/-- `dict[key] = value`. -/
def setKey {κ : Type} [DecidableEq κ] {β : Type} (d : List (κ × β)) (k : κ) (v : β) : List (κ × β) :=
  if d.any fun e => e.1 = k then d.map fun e => if e.1 = k then (k, v) else e else d ++ [(k, v)]

/-- The string of a path: names separated by slashes. -/
def render : Path → List Char
  | [] => []
  | [n] => n
  | n :: m :: p => n ++ '/' :: render (m :: p)

/-- The objects found by `visititems` at or below `dataset`, with their relative paths (hdf.py 102-106): the dataset itself,
or all objects below a group. -/
def visited (ff : File α) (dataset : Path) : List (Path × Obj α) :=
  match lookup ff dataset with
  | some .group => ff.filterMap fun o =>
      if dataset.isPrefixOf o.path ∧ o.path ≠ dataset then some (o.path.drop dataset.length, o) else none
  | _ => ff.filterMap fun o => if o.path = dataset then some ([], o) else none

/-- A path as given by the user, with or without a slash in front. -/
structure Given where
  absolute : Bool
  path : Path
  deriving DecidableEq

/-- Resolve an excluded name to a path of the file (hdf.py 85-91). -/
def resolve (ff : File α) (dataset : Path) (g : Given) : Except Err Path :=
  if (lookup ff g.path).isSome then .ok g.path
  else
    let p := if g.absolute then g.path else dataset ++ g.path
    if (lookup ff p).isSome then .ok p else .error .valueError

/-- `os.path.join(self.dataset, col).lstrip('/')` (hdf.py 110-111). -/
def absname (dataset col : Path) : List Char :=
  if col = [] then render dataset ++ ['/'] else render (dataset ++ col)

/-- The open file: `dataset`, the name of each column in the dtype, the size and `attrs`. -/
structure HDFFile where
  dataset : Path
  columns : List Path
  size : Nat
  attrs : List (Path × Attr)
  deriving DecidableEq

/-- The name of a column in the dtype (hdf.py 131-136): numpy replaces an empty name by `f0`. -/
def dtypeName (single : Bool) (col : Path) : Path :=
  let name := if single then [col.getLastD []] else col
  if name = [] then [['f', '0']] else name

/-- `_exclude` (hdf.py 84-99): the strings compared with the names of the columns. Slashes in front are removed except from the
header. -/
def excludedStrings (ff : File α) (dataset : Path) (exclude : List Given) (header : Option Given) : Except Err (List (List Char)) := do
  let ps ← exclude.mapM (resolve ff dataset)
  match header with
  | none => pure (ps.map render)
  | some h =>
    if (lookup ff h.path).isNone then throw .valueError
    pure (ps.map render ++ [if h.absolute then '/' :: render h.path else render h.path])

/-- The columns left after the exclusion (hdf.py 102-113). -/
def columnInfo (ff : File α) (dataset : Path) (ex : List (List Char)) : List Info :=
  ((visited ff dataset).flatMap fun po => findDatasets po.1 po.2.node).filter fun i =>
    !(ex.any fun e => e.isPrefixOf (absname dataset i.col))

/-- `self.attrs` before a structured array is detected (hdf.py 94-98, 22-23). -/
def collectAttrs (ff : File α) (dataset : Path) (header : Option Given) : List (Path × Attr) :=
  let h := match header with
    | none => []
    | some h => (attrsOf ff h.path).foldl (fun d kv => setKey d [kv.1] (.value kv.2)) []
  (visited ff dataset).foldl (fun d po =>
    match po.2.node with
    | .group => d
    | _ => setKey d po.1 (.dict po.2.attrs)) h

/-- `self.attrs = self.attrs[name]` (hdf.py 142). -/
def dsetAttrs (attrs : List (Path × Attr)) (name : Path) : Except Err (List (Path × Attr)) :=
  match attrs.find? fun e => decide (e.1 = name) with
  | some (_, .dict d) => .ok (d.map fun kv => ([kv.1], .value kv.2))
  | _ => .error .keyError

/-- `HDFFile.__init__` (hdf.py 60-145). -/
def init (ff : File α) (dataset : Path) (exclude : List Given) (header : Option Given) : Except Err HDFFile := do
  if (lookup ff dataset).isNone then throw .valueError
  let ex ← excludedStrings ff dataset exclude header
  let info := columnInfo ff dataset ex
  match (info.map (·.size)).dedup with
  | [] => throw .valueError
  | _ :: _ :: _ => throw .valueError
  | [size] =>
    match (info.map (·.dset)).dedup with
    | [name] =>
      if 1 < info.length then
        let attrs ← dsetAttrs (collectAttrs ff dataset header) name
        pure ⟨dataset ++ name, info.map fun i => dtypeName true i.col, size, attrs⟩
      else pure ⟨dataset, info.map fun i => dtypeName false i.col, size, collectAttrs ff dataset header⟩
    | _ => pure ⟨dataset, info.map fun i => dtypeName false i.col, size, collectAttrs ff dataset header⟩

/-- `rows[start:stop:step]` for `0 <= start`, `stop <= size` and a positive step. -/
def sliceRows (rows : List α) (start stop step : Nat) : List α :=
  (List.range ((stop - start + step - 1) / step)).filterMap fun i => rows[start + i * step]?

/-- The rows of one column (hdf.py 179-220): the dataset with its name, or else a field of the structured array above.
The datasets are read once for all their columns, which is not visible. -/
def readColumn (ff : File α) (dataset col : Path) (start stop step : Nat) : Except Err (List α) :=
  let name := dataset ++ col
  match lookup ff name with
  | some (.plain rows) => .ok (sliceRows rows start stop step)
  | some .group => .error .typeError
  | some (.table _ _) => .error .typeError
  | none =>
    match lookup ff name.dropLast with
    | some (.table _ fields) =>
      match fields.find? fun f => f.1 = name.getLastD [] with
      | some f => .ok (sliceRows f.2 start stop step)
      | none => .error .valueError
    | some (.plain _) => .error .valueError
    | some .group => .error .typeError
    | none => .error .keyError

/-- `HDFFile.read(columns, start, stop, step)` (hdf.py 148-222); a column not in the dtype is a KeyError (line 173). -/
def read (ff : File α) (h : HDFFile) (columns : List Path) (start stop step : Nat) : Except Err (List (Path × List α)) :=
  columns.mapM fun c =>
    if c ∈ h.columns then do pure (c, ← readColumn ff h.dataset c start stop step) else .error .keyError

end NBK.Hdf
