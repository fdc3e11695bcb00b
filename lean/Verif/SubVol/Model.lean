import Mathlib.Data.List.Basic

/-!
# Model of `SubVolumesCatalog` (nbodykit/source/catalog/subvolumes.py)

All ranks at once. A catalog is the list of columns by name, each the list of the ranks' arrays. The decomposition of pmesh is a function from a
position to the rank of its domain. The default columns are `Selection`, `Value`, `Weight` with a constant value (base/catalog.py 1166-1210).
-/
namespace NBK.SubVol

inductive Err | keyError
deriving DecidableEq, Repr

/-- A catalog: local sizes, hard columns and overrides in the order of the definition, default columns with their constant. -/
structure Cat (V M : Type) where
  sizes : List Nat
  cols : List (String × List (List V))
  defaults : List (String × V)
  attrs : M

/-- `cat[col]` (base/catalog.py 372-388). -/
def Cat.get {V M : Type} (c : Cat V M) (col : String) : Except Err (List (List V)) :=
  match c.cols.lookup col with
  | some d => .ok d
  | none => match c.defaults.lookup col with
    | some v => .ok (c.sizes.map fun n => List.replicate n v)
    | none => .error .keyError

/-- `cat.columns`: the names (base/catalog.py 456-472); the order is not modelled. -/
def Cat.columns {V M : Type} (c : Cat V M) : List String := c.cols.map Prod.fst ++ (c.defaults.map Prod.fst).filter fun n => (c.cols.lookup n).isNone

/-- `layout.exchange(data)` on rank `d`: from every rank in order, the entries whose particle belongs to `d`. -/
def exchange {α : Type} (dest : List (List Nat)) (data : List (List α)) (d : Nat) : List α :=
  (dest.zip data).flatMap fun p => ((p.1.zip p.2).filter fun q => q.1 == d).map Prod.snd

/-- `SubVolumesCatalog.__init__` (subvolumes.py 24-59) on the ranks `0 .. P-1`; `domain` gives the rank of a position. -/
def subVolumes {V M : Type} (P : Nat) (domain : V → Nat) (src : Cat V M) (position : String) (columns : Option (List String)) : Except Err (Cat V M) := do
  let pos ← src.get position
  let dest := pos.map fun l => l.map domain
  let cols ← (columns.getD src.columns).mapM fun c => do
    let data ← src.get c
    pure (c, (List.range P).map (exchange dest data))
  pure { sizes := (List.range P).map fun d => (exchange dest pos d).length
         cols := cols
         defaults := src.defaults
         attrs := src.attrs }

end NBK.SubVol
