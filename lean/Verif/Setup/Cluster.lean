import Mathlib.Data.List.Basic
/-!
# Model of `use_distributed` in several clients of one scheduler (nbodykit/__init__.py 52-91)

The scheduler has a lock, the published datasets (only the key of this function matters), the worker callbacks, and workers that come at any time. Each
request to it is one step. `register_worker_callbacks` both keeps the callback for later workers and runs it on those present, in one step. A client may be
gone after any of its steps; its lock is then not released.
-/
namespace NBK.Setup.Cluster

/-- Where a client is in lines 76-91. -/
inductive Phase where
  /-- at `lock.acquire(timeout=3)` -/
  | waiting
  /-- at `key not in c.list_datasets()` -/
  | check
  /-- at `c.publish_dataset` -/
  | publish
  /-- at `c.register_worker_callbacks` -/
  | register
  /-- at `if locked: lock.release()` -/
  | finish
  | done
  | gone
  deriving DecidableEq, Repr

/-- A client: the line, the value of `locked`, and whether a KeyError was seen. -/
structure Client where
  phase : Phase
  locked : Bool
  keyError : Bool
  deriving DecidableEq, Repr

/-- Scheduler, workers (how often each ran the setup), clients. -/
structure State where
  lock : Option Nat
  dataset : Bool
  callbacks : Nat
  workers : List Nat
  clients : List Client
  deriving DecidableEq, Repr

inductive Act where
  | acquire (i : Nat)
  /-- `lock.acquire` gives up after three seconds, the lock being with another client -/
  | timeout (i : Nat)
  | list (i : Nat)
  | publish (i : Nat)
  | register (i : Nat)
  | release (i : Nat)
  | crash (i : Nat)
  /-- a worker starts: it runs the callbacks -/
  | join
  deriving DecidableEq, Repr

/-- The client of a step. -/
def Act.who : Act → Option Nat
  | .acquire i | .timeout i | .list i | .publish i | .register i | .release i | .crash i => some i
  | .join => none

/-- What a step needs and does for its client (__init__.py 77-91). -/
def serve (s : State) (c : Client) : Act → Option (State × Client)
  | .acquire i => if c.phase = .waiting ∧ s.lock = none then some ({ s with lock := some i }, { c with phase := .check, locked := true }) else none
  | .timeout _ => if c.phase = .waiting ∧ s.lock ≠ none then some (s, { c with phase := .check, locked := false }) else none
  | .list _ => if c.phase = .check then some (s, { c with phase := if s.dataset then .finish else .publish }) else none
  | .publish _ =>
    if c.phase = .publish then
      if s.dataset then some (s, { c with phase := .finish, keyError := true }) else some ({ s with dataset := true }, { c with phase := .register })
    else none
  | .register _ =>
    if c.phase = .register then some ({ s with callbacks := s.callbacks + 1, workers := s.workers.map (· + 1) }, { c with phase := .finish }) else none
  | .release _ =>
    if c.phase = .finish then some (if c.locked then { s with lock := none } else s, { c with phase := .done }) else none
  | .crash _ => if c.phase ≠ .done ∧ c.phase ≠ .gone then some (s, { c with phase := .gone }) else none
  | .join => none

/-- A step of the whole. -/
def step (s : State) (a : Act) : Option State :=
  match a.who with
  | none => some { s with workers := s.workers ++ [s.callbacks] }
  | some i => match s.clients[i]? with
    | none => none
    | some c => (serve s c a).map fun r => { r.1 with clients := s.clients.set i r.2 }

/-- `n` clients about to ask for the lock, `m` workers. -/
def start (n m : Nat) : State := ⟨none, false, 0, List.replicate m 0, List.replicate n ⟨.waiting, false, false⟩⟩

/-- A schedule. -/
inductive Run : State → List Act → State → Prop where
  | nil (s) : Run s [] s
  | cons (s a s' l s'') (h : step s a = some s') (hr : Run s' l s'') : Run s (a :: l) s''

end NBK.Setup.Cluster
