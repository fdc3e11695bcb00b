/-!
# Model of `split_ranks` and `TaskManager` (nbodykit/batch.py)
-/
namespace NBK.Batch

/-- `numpy.array_split(l, k)`: the first `n % k` pieces have `n // k + 1` items, the others `n // k`. -/
def arraySplit {α : Type} (l : List α) (k : Nat) : List (List α) :=
  let n := l.length
  let start := fun i => i * (n / k) + min i (n % k)
  (List.range k).map fun i => (l.drop (start i)).take (start (i + 1) - start i)

/-- `split_ranks(N_ranks, N, include_all)` (batch.py 8-42): the yielded pairs. `l[-k:]` for `0 < k <= len` is
`drop (len - k)`, `l[:-1]` is `dropLast` (`remove` is 0 or 1). `N = 0` is a ZeroDivisionError in Python and is excluded
in the theorems. -/
def splitRanks (nRanks N : Nat) (includeAll : Bool) : List (Nat × List Nat) :=
  let available := (List.range (nRanks - 1)).map (· + 1)
  let total := available.length
  let extra := total % N
  if includeAll then
    (arraySplit available (max (total / N) 1)).mapIdx fun i c => (i, c)
  else
    let full := (List.range (total / N)).map fun i => (i, (available.drop (i * N)).take N)
    let i := total / N
    if extra ≠ 0 ∧ extra ≥ N / 2 then
      let remove := extra % 2
      let ranks := available.drop (total - extra)
      let ranks := if remove ≠ 0 then ranks.dropLast else ranks
      if ranks.length ≠ 0 then full ++ [(i + 1, ranks)] else full
    else full

/-!
## The task protocol

One "worker" is one sub-communicator (group); its members act in lock step through `bcast`/`Barrier`, so a group
is one process here.  Messages between two processes are delivered in order (MPI non-overtaking rule);
the master receives from an arbitrary worker that has a message pending (`ANY_SOURCE`, `ANY_TAG`).
`sync = true` means that a `send` returns only after the message has been received (rendezvous),
`sync = false` that it returns at once (buffered).  Both are allowed by MPI.
Not modelled: exceptions inside the user's function (they end in `os._exit`).
-/

/-- Messages to the master: `(None, READY)`, `([tasknum, None], DONE)`, `(None, EXIT)` (batch.py 193, 212, 222). -/
inductive ToMaster where
  | ready
  | done (i : Nat)
  | exit
  deriving DecidableEq, Repr

/-- Messages to a worker: `([task_index, task], START)`, `(None, EXIT)` (batch.py 251-257). -/
inductive ToWorker (τ : Type) where
  | start (i : Nat) (t : τ)
  | exit
  deriving Repr

/-- Where a worker is in `_get_tasks` / `map` (batch.py 187-222, 327-340). -/
inductive Pc (τ : Type) where
  /-- top of the loop, about to send READY (193) -/
  | top
  /-- in `recv(source=0)` (194) -/
  | waiting
  /-- the user's code runs (206 / 335) -/
  | computing (i : Nat) (t : τ)
  /-- about to send DONE (209-212) -/
  | reporting (i : Nat)
  /-- about to send EXIT (219-222) -/
  | exiting
  /-- generator finished -/
  | exited
  deriving Repr

/-- A worker: program counter, messages sent but not yet received by the master, messages addressed to it, and the
`results` list of `map` (batch.py 324, 337). -/
structure Worker (τ β : Type) where
  pc : Pc τ
  out : List ToMaster
  inb : List (ToWorker τ)
  results : List (Nat × β)

/-- Global state: the master's `task_index` and `closed_workers` (batch.py 230-231), and the workers. -/
structure St (τ β : Type) where
  next : Nat
  closed : Nat
  ws : List (Worker τ β)

/-- Start: every worker at the top of its loop. -/
def init (τ β : Type) (W : Nat) : St τ β := ⟨0, 0, List.replicate W ⟨.top, [], [], []⟩⟩

/-- One step of the system. A worker step is allowed only when its earlier sends have completed (`sync → out = []`);
the master receives only if its own last send has completed (`sync → all inboxes empty`), and only while
`closed_workers < workers` (batch.py 238). -/
inductive Step {τ β : Type} (sync : Bool) (f : τ → β) (tasks : List τ) : St τ β → St τ β → Prop where
  /-- `basecomm.send(None, dest=0, tag=READY)` (193) -/
  | sendReady (n c pre post o b res) (h : sync = true → o = []) :
      Step sync f tasks ⟨n, c, pre ++ ⟨.top, o, b, res⟩ :: post⟩
        ⟨n, c, pre ++ ⟨.waiting, o ++ [.ready], b, res⟩ :: post⟩
  /-- `recv` of a START message (194-204) -/
  | recvStart (n c pre post o b res i t) (h : sync = true → o = []) :
      Step sync f tasks ⟨n, c, pre ++ ⟨.waiting, o, .start i t :: b, res⟩ :: post⟩
        ⟨n, c, pre ++ ⟨.computing i t, o, b, res⟩ :: post⟩
  /-- `recv` of an EXIT message (194, 215-216) -/
  | recvExit (n c pre post o b res) (h : sync = true → o = []) :
      Step sync f tasks ⟨n, c, pre ++ ⟨.waiting, o, .exit :: b, res⟩ :: post⟩
        ⟨n, c, pre ++ ⟨.exiting, o, b, res⟩ :: post⟩
  /-- `result = function(*args); results.append((tasknum, result))` (335-337) -/
  | compute (n c pre post o b res i t) :
      Step sync f tasks ⟨n, c, pre ++ ⟨.computing i t, o, b, res⟩ :: post⟩
        ⟨n, c, pre ++ ⟨.reporting i, o, b, res ++ [(i, f t)]⟩ :: post⟩
  /-- `basecomm.send([args[0], None], dest=0, tag=DONE)` (212) -/
  | sendDone (n c pre post o b res i) (h : sync = true → o = []) :
      Step sync f tasks ⟨n, c, pre ++ ⟨.reporting i, o, b, res⟩ :: post⟩
        ⟨n, c, pre ++ ⟨.top, o ++ [.done i], b, res⟩ :: post⟩
  /-- `basecomm.send(None, dest=0, tag=EXIT)` (222) -/
  | sendExit (n c pre post o b res) (h : sync = true → o = []) :
      Step sync f tasks ⟨n, c, pre ++ ⟨.exiting, o, b, res⟩ :: post⟩
        ⟨n, c, pre ++ ⟨.exited, o ++ [.exit], b, res⟩ :: post⟩
  /-- master: READY received, tasks left (241-253) -/
  | mStart (n c pre post pc o b res t) (hc : c < (pre ++ ⟨pc, .ready :: o, b, res⟩ :: post).length)
      (hs : sync = true → ∀ w ∈ pre ++ ⟨pc, .ready :: o, b, res⟩ :: post, w.inb = []) (ht : tasks[n]? = some t) :
      Step sync f tasks ⟨n, c, pre ++ ⟨pc, .ready :: o, b, res⟩ :: post⟩
        ⟨n + 1, c, pre ++ ⟨pc, o, b ++ [.start n t], res⟩ :: post⟩
  /-- master: READY received, no tasks left (255-257) -/
  | mExit (n c pre post pc o b res) (hc : c < (pre ++ ⟨pc, .ready :: o, b, res⟩ :: post).length)
      (hs : sync = true → ∀ w ∈ pre ++ ⟨pc, .ready :: o, b, res⟩ :: post, w.inb = []) (ht : ¬ n < tasks.length) :
      Step sync f tasks ⟨n, c, pre ++ ⟨pc, .ready :: o, b, res⟩ :: post⟩
        ⟨n, c, pre ++ ⟨pc, o, b ++ [.exit], res⟩ :: post⟩
  /-- master: DONE received (260-261) -/
  | mDone (n c pre post pc o b res i) (hc : c < (pre ++ ⟨pc, .done i :: o, b, res⟩ :: post).length)
      (hs : sync = true → ∀ w ∈ pre ++ ⟨pc, .done i :: o, b, res⟩ :: post, w.inb = []) :
      Step sync f tasks ⟨n, c, pre ++ ⟨pc, .done i :: o, b, res⟩ :: post⟩
        ⟨n, c, pre ++ ⟨pc, o, b, res⟩ :: post⟩
  /-- master: EXIT received (264-266) -/
  | mClosed (n c pre post pc o b res) (hc : c < (pre ++ ⟨pc, .exit :: o, b, res⟩ :: post).length)
      (hs : sync = true → ∀ w ∈ pre ++ ⟨pc, .exit :: o, b, res⟩ :: post, w.inb = []) :
      Step sync f tasks ⟨n, c, pre ++ ⟨pc, .exit :: o, b, res⟩ :: post⟩
        ⟨n, c + 1, pre ++ ⟨pc, o, b, res⟩ :: post⟩

/-- Executions: finitely many steps. -/
inductive Reach {τ β : Type} (sync : Bool) (f : τ → β) (tasks : List τ) : St τ β → St τ β → Prop where
  | refl (s) : Reach sync f tasks s s
  | step (s s' s'') : Reach sync f tasks s s' → Step sync f tasks s' s'' → Reach sync f tasks s s''

/-- The end of `map` (batch.py 343-346): gather all results, sort by task number, drop the numbers. -/
def mapResult {τ β : Type} (s : St τ β) : List β :=
  ((s.ws.flatMap (·.results)).mergeSort (fun x y => x.1 ≤ y.1)).map (·.2)

end NBK.Batch
