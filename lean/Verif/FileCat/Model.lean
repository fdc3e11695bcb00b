import Verif.PySlice.Basic

/-!
# Model of file catalogs and of saving catalogs (source/catalog/file.py, base/catalog.py `save`)

A file is the list of its rows.  `get_dask(col)[lstart:lend]` reads with Python slice semantics.
The bigfile block is a buffer of cells, `none` until written; its format is not modelled.
-/
namespace NBK.FileCat
open NBK.PySlice

inductive Err where
  | valueError
  deriving DecidableEq, Repr

/-- A file catalog on all `P` ranks: `start`/`end` attributes, the rows `[lstart, lend)` of each rank, and the columns
assigned by the user. -/
structure FCat (ρ : Type) where
  file : List ρ
  P : Nat
  start : Int
  stop : Int
  lstart : Nat → Int
  lend : Nat → Int
  assigned : List String

/-- `FileCatalogBase.__init__` (file.py 51-60). -/
def openFile {ρ : Type} (file : List ρ) (P : Nat) : FCat ρ :=
  { file := file, P := P, start := 0, stop := file.length,
    lstart := fun r => Int.fdiv (r * file.length) P,
    lend := fun r => Int.fdiv ((r + 1) * file.length) P,
    assigned := [] }

/-- `cat[col] = array`. -/
def assign {ρ : Type} (c : FCat ρ) (col : String) : FCat ρ := { c with assigned := col :: c.assigned }

/-- `query_range(start, end)` (file.py 70-101). The guard looks at the columns hard-coded in the class
(`CatalogSource.hardcolumns`), not at assigned columns; a plain file catalog class has none. The call of
`CatalogSource.__init__` empties the assigned columns of the new object. -/
def queryRange {ρ : Type} (classHard : List String) (c : FCat ρ) (s e : Int) : Except Err (FCat ρ) :=
  if classHard.length > 0 then .error .valueError else
  .ok { c with
    lstart := fun r => c.start + s + Int.fdiv (r * (e - s)) c.P
    lend := fun r => c.start + s + Int.fdiv ((r + 1) * (e - s)) c.P
    start := s
    stop := e
    assigned := [] }

/-- `_size` on rank `r` (file.py 54, 97). -/
def size {ρ : Type} (c : FCat ρ) (r : Nat) : Int := c.lend r - c.lstart r

/-- A file column on rank `r` (file.py 124-132). -/
def localRows {ρ : Type} (c : FCat ρ) (r : Nat) : List ρ :=
  (pySlice c.file ⟨some (c.lstart r), some (c.lend r), none⟩).getD []

/-- All ranks' rows. -/
def allRows {ρ : Type} (c : FCat ρ) : List (List ρ) := (List.range c.P).map (localRows c)

/-- `offset = numpy.sum(comm.allgather(len(array))[:rank])` (catalog.py 634). -/
def offset (lens : List Nat) (r : Nat) : Nat := (lens.take r).sum

/-- The blocks in which dask stores one rank's array into `region = slice(offset, offset + len)` (catalog.py 646-662,
682): consecutive chunks, each written at its own start; `chunks` are the chunk lengths. -/
def chunkWrites {ρ : Type} (off : Nat) : List Nat → List ρ → List (Nat × List ρ)
  | [], _ => []
  | n :: ns, l => (off, l.take n) :: chunkWrites (off + n) ns (l.drop n)

/-- All writes of all ranks: `D` are the local arrays, `C` their chunk lengths. -/
def allWrites {ρ : Type} (D : List (List ρ)) (C : List (List Nat)) : List (Nat × List ρ) :=
  (((D.zip C).mapIdx fun r p => chunkWrites (offset (D.map List.length) r) p.2 p.1)).flatten

/-- `bb.write(start, value)` (catalog.py 618). -/
def writeBlock {ρ : Type} (buf : List (Option ρ)) (w : Nat × List ρ) : List (Option ρ) :=
  buf.mapIdx fun i x => if w.1 ≤ i ∧ i < w.1 + w.2.length then w.2[i - w.1]? else x

/-- The block after the writes `ws`, done in this order; it is created with `size = allreduce(len)` rows (633, 643). -/
def savedBlock {ρ : Type} (D : List (List ρ)) (ws : List (Nat × List ρ)) : List (Option ρ) :=
  ws.foldl writeBlock (List.replicate (D.map List.length).sum none)

end NBK.FileCat
