import Mathlib.Data.Rat.Defs
import Mathlib.Algebra.Order.Ring.Rat
import Mathlib.Algebra.BigOperators.Group.List.Basic

/-!
# Model of `CatalogMesh.to_real_field` (nbodykit/source/mesh/catalog.py 150-402)

A catalog is the list of rows of each rank.  The mesh is represented by the list of deposits made by `pm.paint`; that pmesh
deposits a row sent to several ranks once in total is trusted.  Numbers are rational.
-/
namespace NBK.Paint

/-- A row with its weight, value and selection flag; 1 and true where the column is absent (catalog.py 243-262). -/
structure Row where
  pos : Nat
  weight : ℚ
  value : ℚ
  sel : Bool
  deriving DecidableEq

inductive Err where
  /-- "Cannot find a chunksize that fits into memory." -/
  | runtime
  /-- the loop never ends -/
  | diverges
  deriving DecidableEq, Repr

/-- The tallies of a rank: `Nlocal`, `Wlocal`, `W2local`. -/
structure Tally where
  n : Nat
  w : ℚ
  w2 : ℚ
  deriving DecidableEq

/-- The tallies of the selected rows of a chunk (catalog.py 265-267). -/
def tallyOf (rows : List Row) : Tally :=
  ⟨rows.length, (rows.map Row.weight).sum, (rows.map fun r => r.weight ^ 2).sum⟩

def Tally.add (a b : Tally) : Tally := ⟨a.n + b.n, a.w + b.w, a.w2 + b.w2⟩

/-- The deposits on the mesh so far, and the tallies of the ranks. -/
structure State where
  mesh : List Row
  tally : List Tally

/-- The selected rows of the chunk `slice(i, i+c)` on a rank (catalog.py 231-256). -/
def chunk (i c : Nat) (rows : List Row) : List Row := ((rows.drop i).take c).filter Row.sel

/-- `lay.recvlength` of rank `r`: the rows of all ranks which overlap its domain. -/
def recvlength (dest : Row → List Nat) (parts : List (List Row)) (r : Nat) : Nat :=
  (parts.map fun part => (part.filter fun x => (dest x).contains r).length).sum

/-- `dochunk` (catalog.py 231-298); `none` is `StopIteration`, raised before anything is painted. -/
def dochunk (dest : Row → List Nat) (maxc : Nat) (ranks : List (List Row)) (i c : Nat) (s : State) : Option State :=
  let parts := ranks.map (chunk i c)
  if (List.range ranks.length).any (fun r => recvlength dest parts r > 2 * maxc) then none
  else some ⟨s.mesh ++ parts.flatten, List.zipWith Tally.add s.tally (parts.map tallyOf)⟩

/-- The loop (catalog.py 300-332). A successful chunk of size 0 repeats forever. -/
def loop (dest : Row → List Nat) (maxc : Nat) (ranks : List (List Row)) (nmax : Nat) (i c : Nat) (s : State) :
    Except Err State :=
  if i < nmax then
    match dochunk dest maxc ranks i c s with
    | none => if c / 2 < 1 then .error .runtime else loop dest maxc ranks nmax i (c / 2) s
    | some s' => if c = 0 then .error .diverges else loop dest maxc ranks nmax (i + c) (min maxc (c * 3 / 2)) s'
  else .ok s
termination_by (nmax - i, c)
decreasing_by
  · apply Prod.Lex.right; omega
  · apply Prod.Lex.left; omega

/-- What is returned: deposits, factor multiplying the mesh (`none`: the mesh is set to 1) and the attributes. -/
structure Result where
  mesh : List Row
  factor : Option ℚ
  N : Nat
  W : ℚ
  W2 : ℚ
  nbar : ℚ
  shotnoise : ℚ

/-- After the loop (catalog.py 355-402) on an empty mesh, for `ncells = prod(Nmesh)` and `volume = prod(BoxSize)`. -/
def finish (s : State) (ncells : Nat) (volume : ℚ) (normalize : Bool) : Result :=
  let N := (s.tally.map Tally.n).sum
  let W := (s.tally.map Tally.w).sum
  let W2 := (s.tally.map Tally.w2).sum
  let nbar := W / ncells
  let factor := if normalize then (if nbar > 0 then some (1 / nbar) else none) else some 1
  ⟨s.mesh, factor, N, W, W2, nbar, volume * W2 / W ^ 2⟩

/-- `to_real_field` (catalog.py 150-402); `Nlocalmax` is the maximum of the number of rows of the ranks (catalog.py 222). -/
def paint (dest : Row → List Nat) (maxc : Nat) (ranks : List (List Row)) (ncells : Nat) (volume : ℚ) (normalize : Bool) :
    Except Err Result :=
  match loop dest maxc ranks ((ranks.map List.length).foldl max 0) 0 maxc ⟨[], ranks.map fun _ => ⟨0, 0, 0⟩⟩ with
  | .error e => .error e
  | .ok s => .ok (finish s ncells volume normalize)

end NBK.Paint
