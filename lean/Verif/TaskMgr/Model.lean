import Verif.Batch.Model

/-!
# Model of the `TaskManager` context and of all ranks of its worker groups (nbodykit/batch.py)

`Verif.Batch` has one process per worker group. Here every rank of a group is a process of its own, which meets the others in the
collective calls `bcast` and `Barrier` of the group's communicator.
-/
namespace NBK.TaskMgr
open NBK.Batch

inductive Err where
  | valueError
  | zeroDivision
  deriving DecidableEq, Repr

/-- What `__enter__` leaves on one rank. `comm` is the list of ranks (of the base communicator) of the new communicator, `leftover` the
number in the warning. -/
structure Ctx where
  workers : Nat
  leftover : Nat
  valid : Bool
  comm : List Nat
  deriving DecidableEq, Repr

/-- The color of a rank (batch.py 119-122): one more than the number of the last group that has the rank, else 0. -/
def color (size N : Nat) (all : Bool) (rank : Nat) : Nat :=
  (splitRanks size N all).foldl (fun c p => if rank ∈ p.2 then p.1 + 1 else c) 0

/-- `TaskManager.__init__` and `__enter__` (batch.py 84-151) on one rank. `Split(color, 0)` makes one communicator of the ranks of a color,
in the order of the base communicator. -/
def enter (size N : Nat) (all : Bool) (rank : Nat) : Except Err Ctx :=
  if size = 1 then .error .valueError
  else if N = 0 then .error .zeroDivision
  else
    let g := splitRanks size N all
    if g.length = 0 then .error .valueError
    else if size ≤ g.length then .error .valueError
    else .ok ⟨g.length, (size - 1) - (g.map fun p => p.2.length).sum, decide (0 < color size N all rank),
      (List.range size).filter fun r => color size N all r = color size N all rank⟩

/-! ## The ranks of a group -/

variable {τ β : Type}

/-- Where the first rank of a group is in `_get_tasks` and `map` (batch.py 187-222, 327-340). -/
inductive RPc (τ : Type) where
  /-- about to send READY (193) -/
  | top
  /-- in `recv` (194) -/
  | waiting
  /-- about to broadcast `args` (198) -/
  | bc1 (m : ToWorker τ)
  /-- about to broadcast `tag` (199) -/
  | bc2 (m : ToWorker τ)
  /-- the user's code (206, 335) -/
  | computing (i : Nat) (t : τ)
  /-- in the barrier after a task (209) -/
  | barrier (i : Nat)
  /-- about to send DONE (210-212) -/
  | reporting (i : Nat)
  /-- in the last barrier (219) -/
  | barrierX
  /-- about to send EXIT (220-222) -/
  | exiting
  | exited
  deriving Repr

/-- A broadcast value: `args` or `tag`. -/
inductive BMsg (τ : Type) where
  | args (a : Option (Nat × τ))
  | tag (start : Bool)
  deriving Repr

/-- Where another rank of a group is. -/
inductive MPc (τ : Type) where
  /-- in the broadcast of `args` (198) -/
  | b1
  /-- in the broadcast of `tag` (199) -/
  | b2 (a : Option (Nat × τ))
  | computing (i : Nat) (t : τ)
  | barrier
  | barrierX
  | exited
  deriving Repr

/-- A rank other than the first of its group: broadcasts under way to it, and the tasks that it has run. -/
structure Member (τ : Type) where
  pc : MPc τ
  q : List (BMsg τ)
  seen : List (Nat × τ)

/-- A group: the first rank with its messages, its `results` (batch.py 324, 337) and the tasks that it has run, and the other ranks. -/
structure Group (τ β : Type) where
  pc : RPc τ
  out : List ToMaster
  inb : List (ToWorker τ)
  results : List (Nat × β)
  seen : List (Nat × τ)
  ms : List (Member τ)

structure MSt (τ β : Type) where
  next : Nat
  closed : Nat
  gs : List (Group τ β)

/-- Start: groups with the given numbers of other ranks. -/
def minit (τ β : Type) (sizes : List Nat) : MSt τ β :=
  ⟨0, 0, sizes.map fun k => ⟨.top, [], [], [], [], List.replicate k ⟨.b1, [], []⟩⟩⟩

/-- `args` of a message (batch.py 194). -/
def argsOf : ToWorker τ → Option (Nat × τ)
  | .start i t => some (i, t)
  | .exit => none

/-- `bcast` on the first rank: the value is on its way to all others. -/
def bcast (v : BMsg τ) (ms : List (Member τ)) : List (Member τ) := ms.map fun m => { m with q := m.q ++ [v] }

/-- The rank is in a barrier. -/
def atBarrier (m : Member τ) : Bool :=
  match m.pc with
  | .barrier => true
  | .barrierX => true
  | _ => false

/-- What a rank does when the barrier is complete: the loop starts again, or the generator ends. -/
def leave (m : Member τ) : Member τ :=
  match m.pc with
  | .barrier => { m with pc := .b1 }
  | .barrierX => { m with pc := .exited }
  | _ => m

/-- One step of one group (batch.py 187-222, 327-340). With `sync` a `send` or a broadcast of the first rank is complete only when it has been received. -/
inductive GStep (sync : Bool) (f : τ → β) : Group τ β → Group τ β → Prop where
  | ready (o b res sn ms) (h : sync = true → o = []) :
      GStep sync f ⟨.top, o, b, res, sn, ms⟩ ⟨.waiting, o ++ [.ready], b, res, sn, ms⟩
  | recv (o b res sn ms m) (h : sync = true → o = []) :
      GStep sync f ⟨.waiting, o, m :: b, res, sn, ms⟩ ⟨.bc1 m, o, b, res, sn, ms⟩
  | bcast1 (o b res sn ms m) (h : sync = true → ∀ x ∈ ms, x.q = []) :
      GStep sync f ⟨.bc1 m, o, b, res, sn, ms⟩ ⟨.bc2 m, o, b, res, sn, bcast (.args (argsOf m)) ms⟩
  | bcastStart (o b res sn ms i t) (h : sync = true → ∀ x ∈ ms, x.q = []) :
      GStep sync f ⟨.bc2 (.start i t), o, b, res, sn, ms⟩ ⟨.computing i t, o, b, res, sn, bcast (.tag true) ms⟩
  | bcastExit (o b res sn ms) (h : sync = true → ∀ x ∈ ms, x.q = []) :
      GStep sync f ⟨.bc2 .exit, o, b, res, sn, ms⟩ ⟨.barrierX, o, b, res, sn, bcast (.tag false) ms⟩
  | compute (o b res sn ms i t) :
      GStep sync f ⟨.computing i t, o, b, res, sn, ms⟩ ⟨.barrier i, o, b, res ++ [(i, f t)], sn ++ [(i, t)], ms⟩
  | releaseDone (o b res sn ms i) (h : ∀ x ∈ ms, atBarrier x = true) :
      GStep sync f ⟨.barrier i, o, b, res, sn, ms⟩ ⟨.reporting i, o, b, res, sn, ms.map leave⟩
  | releaseExit (o b res sn ms) (h : ∀ x ∈ ms, atBarrier x = true) :
      GStep sync f ⟨.barrierX, o, b, res, sn, ms⟩ ⟨.exiting, o, b, res, sn, ms.map leave⟩
  | done (o b res sn ms i) (h : sync = true → o = []) :
      GStep sync f ⟨.reporting i, o, b, res, sn, ms⟩ ⟨.top, o ++ [.done i], b, res, sn, ms⟩
  | exit (o b res sn ms) (h : sync = true → o = []) :
      GStep sync f ⟨.exiting, o, b, res, sn, ms⟩ ⟨.exited, o ++ [.exit], b, res, sn, ms⟩
  | mArgs (pc o b res sn pre post a q ms) :
      GStep sync f ⟨pc, o, b, res, sn, pre ++ ⟨.b1, .args a :: q, ms⟩ :: post⟩ ⟨pc, o, b, res, sn, pre ++ ⟨.b2 a, q, ms⟩ :: post⟩
  | mStart (pc o b res sn pre post i t q ms) :
      GStep sync f ⟨pc, o, b, res, sn, pre ++ ⟨.b2 (some (i, t)), .tag true :: q, ms⟩ :: post⟩
        ⟨pc, o, b, res, sn, pre ++ ⟨.computing i t, q, ms⟩ :: post⟩
  | mExit (pc o b res sn pre post a q ms) :
      GStep sync f ⟨pc, o, b, res, sn, pre ++ ⟨.b2 a, .tag false :: q, ms⟩ :: post⟩ ⟨pc, o, b, res, sn, pre ++ ⟨.barrierX, q, ms⟩ :: post⟩
  | mCompute (pc o b res sn pre post i t q ms) :
      GStep sync f ⟨pc, o, b, res, sn, pre ++ ⟨.computing i t, q, ms⟩ :: post⟩
        ⟨pc, o, b, res, sn, pre ++ ⟨.barrier, q, ms ++ [(i, t)]⟩ :: post⟩

/-- One step of all ranks. The steps of the master are those of `Batch.Step` (batch.py 238-266). -/
inductive MStep (sync : Bool) (f : τ → β) (tasks : List τ) : MSt τ β → MSt τ β → Prop where
  | group (n c pre post g g') (h : GStep sync f g g') : MStep sync f tasks ⟨n, c, pre ++ g :: post⟩ ⟨n, c, pre ++ g' :: post⟩
  | mStart (n c pre post pc o b res sn ms t) (hc : c < (pre ++ ⟨pc, .ready :: o, b, res, sn, ms⟩ :: post).length)
      (hs : sync = true → ∀ w ∈ pre ++ ⟨pc, .ready :: o, b, res, sn, ms⟩ :: post, w.inb = []) (ht : tasks[n]? = some t) :
      MStep sync f tasks ⟨n, c, pre ++ ⟨pc, .ready :: o, b, res, sn, ms⟩ :: post⟩
        ⟨n + 1, c, pre ++ ⟨pc, o, b ++ [.start n t], res, sn, ms⟩ :: post⟩
  | mExit (n c pre post pc o b res sn ms) (hc : c < (pre ++ ⟨pc, .ready :: o, b, res, sn, ms⟩ :: post).length)
      (hs : sync = true → ∀ w ∈ pre ++ ⟨pc, .ready :: o, b, res, sn, ms⟩ :: post, w.inb = []) (ht : ¬ n < tasks.length) :
      MStep sync f tasks ⟨n, c, pre ++ ⟨pc, .ready :: o, b, res, sn, ms⟩ :: post⟩
        ⟨n, c, pre ++ ⟨pc, o, b ++ [.exit], res, sn, ms⟩ :: post⟩
  | mDone (n c pre post pc o b res sn ms i) (hc : c < (pre ++ ⟨pc, .done i :: o, b, res, sn, ms⟩ :: post).length)
      (hs : sync = true → ∀ w ∈ pre ++ ⟨pc, .done i :: o, b, res, sn, ms⟩ :: post, w.inb = []) :
      MStep sync f tasks ⟨n, c, pre ++ ⟨pc, .done i :: o, b, res, sn, ms⟩ :: post⟩ ⟨n, c, pre ++ ⟨pc, o, b, res, sn, ms⟩ :: post⟩
  | mClosed (n c pre post pc o b res sn ms) (hc : c < (pre ++ ⟨pc, .exit :: o, b, res, sn, ms⟩ :: post).length)
      (hs : sync = true → ∀ w ∈ pre ++ ⟨pc, .exit :: o, b, res, sn, ms⟩ :: post, w.inb = []) :
      MStep sync f tasks ⟨n, c, pre ++ ⟨pc, .exit :: o, b, res, sn, ms⟩ :: post⟩ ⟨n, c + 1, pre ++ ⟨pc, o, b, res, sn, ms⟩ :: post⟩

/-- Executions with their number of steps. -/
inductive MRun (sync : Bool) (f : τ → β) (tasks : List τ) : Nat → MSt τ β → MSt τ β → Prop where
  | nil (s) : MRun sync f tasks 0 s s
  | cons (k s s' s'') : MRun sync f tasks k s s' → MStep sync f tasks s' s'' → MRun sync f tasks (k + 1) s s''

/-- What `map` returns on every rank (batch.py 343-346): only the first ranks of groups have results. -/
def mMapResult (s : MSt τ β) : List β :=
  ((s.gs.flatMap (·.results)).mergeSort (fun x y => x.1 ≤ y.1)).map (·.2)

end NBK.TaskMgr
