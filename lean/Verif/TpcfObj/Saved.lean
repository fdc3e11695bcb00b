import Verif.Json.Props

/-!
# Model of saving and loading a three-point function (nbodykit/algorithms/threeptcf.py 152-191)

The text is the tree of `Verif.Json`.  All ranks get the state by a broadcast.
-/
namespace NBK.TpcfObj
open Json (V J Field Fl)

/-- An object: the BinnedStatistic with its dimensions, edges and data, `attrs`, and whether it has a `source`. -/
structure Saved where
  dims : List String
  edges : List V
  data : V
  attrs : List (String × V)
  source : Bool

/-- `BinnedStatistic(['r1', 'r2'], [edges, edges], data)` and the attributes (threeptcf.py 147-150, 155-157). -/
def ofState (poles : V) (attrs : List (String × V)) (source : Bool) : Except Json.Err Saved :=
  match attrs.lookup "edges" with
  | none => .error .keyError
  | some e => .ok ⟨["r1", "r2"], [e, e], poles, attrs, source⟩

/-- `__getstate__` (threeptcf.py 152-153) -/
def getState (o : Saved) : V := .dict [("poles", o.data), ("attrs", .dict o.attrs)]

/-- `save` (threeptcf.py 159-171) -/
def save (o : Saved) : Except Json.Err J := Json.enc (getState o)

/-- `load` (threeptcf.py 173-191): the state becomes the dictionary of the object. -/
def load (j : J) : Except Json.Err Saved :=
  match Json.dec j with
  | .error e => .error e
  | .ok (.dict d) => match d.lookup "poles", d.lookup "attrs" with
    | some p, some (.dict a) => ofState p a false
    | _, _ => .error .keyError
  | .ok _ => .error .typeError

/-- The structured array of the result (threeptcf.py 141-145): one field per multipole, over `n` times `n` bins. -/
def dataOf (poles : List Nat) (n : Nat) (zeta : Nat → Nat → Nat → Fl) : V :=
  .sarr (poles.map fun l => ⟨"corr_" ++ toString l, .base "<f8", none⟩) [n, n]
    ((List.range (n * n)).map fun i => poles.map fun l => [.flt (zeta l (i / n) (i % n))])

end NBK.TpcfObj
