import Mathlib.Algebra.BigOperators.Group.List.Basic

/-!
# Model of the slab iteration with Hermitian weights (nbodykit/meshtools.py) and of the weights of `ProjectedFFTPower`

Meshes are three dimensional. Fourier coordinates are given in units of the fundamental mode of the axis, as integers: only
their sign matters for the weights. A rank holds a block of the mesh, i.e. the list of its indices along each axis.
-/
namespace NBK.Hermitian

/-- An index triple, and the mesh size. -/
structure Pt where
  x : Nat
  y : Nat
  z : Nat
  deriving DecidableEq, Repr

def Pt.get (p : Pt) : Nat → Nat
  | 0 => p.x
  | 1 => p.y
  | _ => p.z

/-- The Fourier coordinate of index `j` along an axis of `N` cells; pmesh has the Nyquist frequency in the negative half, as
`numpy.fft.fftfreq` (see the comment at meshtools.py 142-147). -/
def freq (N j : Nat) : Int := if 2 * j < N then j else (j : Int) - N

/-- The part of the mesh held by a rank (`coords` of meshtools.py 12-18): indices along the axes. -/
structure Block where
  xs : List Nat
  ys : List Nat
  zs : List Nat

def Block.get (b : Block) : Nat → List Nat
  | 0 => b.xs
  | 1 => b.ys
  | _ => b.zs

/-- The points of the slab with index `i` along `axis` (`MeshSlab.index`, `shape`, meshtools.py 37-67). -/
def slab (b : Block) (axis i : Nat) : List Pt :=
  match (b.get axis)[i]? with
  | none => []
  | some v => match axis with
    | 0 => b.ys.flatMap fun y => b.zs.map fun z => ⟨v, y, z⟩
    | 1 => b.xs.flatMap fun x => b.zs.map fun z => ⟨x, v, z⟩
    | _ => b.xs.flatMap fun x => b.ys.map fun y => ⟨x, y, v⟩

/-- `nonsingular` (meshtools.py 145-186). -/
def nonsingular (N : Pt) (axis sym : Nat) (p : Pt) : Bool :=
  if sym = axis then
    if freq (N.get axis) (p.get axis) ≤ 0 then false else true
  else decide (freq (N.get sym) (p.get sym) > 0)

/-- `hermitian_weights` (meshtools.py 189-215). -/
def weight (N : Pt) (axis : Nat) (sym : Option Nat) (p : Pt) : Nat :=
  match sym with
  | none => 1
  | some s =>
    if axis = s then (if freq (N.get s) (p.get s) > 0 then 2 else 1)
    else if nonsingular N axis s p then 2 else 1

/-- The number of slabs (`SlabIterator`, meshtools.py 258-261). -/
def nslabs (b : Block) (axis : Nat) : Nat := (b.get axis).length

/-- Weighted sum over the slabs of a rank (as in `project_to_basis`, fftpower.py 606-676). -/
def localSum {α : Type} [AddCommMonoid α] (N : Pt) (axis : Nat) (sym : Option Nat) (g : Pt → α) (b : Block) : α :=
  ((List.range (nslabs b axis)).map fun i => ((slab b axis i).map fun p => weight N axis sym p • g p).sum).sum

/-- Sum over all ranks (`comm.allreduce`, fftpower.py 679-682). -/
def globalSum {α : Type} [AddCommMonoid α] (N : Pt) (axis : Nat) (sym : Option Nat) (g : Pt → α) (bs : List Block) : α :=
  (bs.map (localSum N axis sym g)).sum

/-- The weight `W` of index `j` of the last axis in `ProjectedFFTPower` (fftpower.py 462-465); `numpy.fft.rfftn` stores
`N // 2 + 1` indices along the last axis of size `N`, of which the index `-1` is the last. -/
def projWeight (N j : Nat) : Nat :=
  let W := List.replicate (N / 2 + 1) 2
  let W := W.set 0 1
  let W := W.set (W.length - 1) 1
  W.getD j 0

/-- The weighted sum over the modes stored by `rfftn` of a one (`rows = 1`) or two dimensional projection. -/
def projSum {α : Type} [AddCommMonoid α] (rows N : Nat) (g : Nat → Nat → α) : α :=
  ((List.range rows).map fun i => ((List.range (N / 2 + 1)).map fun j => projWeight N j • g i j).sum).sum

end NBK.Hermitian
