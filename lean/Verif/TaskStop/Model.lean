import Verif.Batch.Model

/-!
# `TaskManager` when the user's code leaves the loop (nbodykit/batch.py)

The protocol is that of `Verif.Batch.Model`, which has no exceptions. Here some tasks *stop* the group that runs them: the function given to `map` raises (batch.py 335),
so that the rank leaves `map` and the context and ends in `os._exit` (349-358), or the body of `for task in tm.iterate(tasks)` has a `break`, so that the
generators are closed at their `yield` (206, 297) and the code after it (208-222) does not run: neither DONE nor EXIT is sent.
In both cases the first rank of the group sends and receives nothing any more. This is modelled by a group that stays at the task for ever.
-/
namespace NBK.TaskStop
open NBK.Batch

/-- The group is at a task that stops it. -/
def halted {τ β : Type} (stops : τ → Bool) (w : Worker τ β) : Bool :=
  match w.pc with
  | .computing _ t => stops t
  | _ => false

/-- One step: one of the protocol, in which a group that has stopped does not move (batch.py 206-222, 335, 349-358). -/
structure SStep {τ β : Type} (sync : Bool) (f : τ → β) (stops : τ → Bool) (tasks : List τ) (s s' : St τ β) : Prop where
  step : Step sync f tasks s s'
  still : ∀ (k : Nat) w, s.ws[k]? = some w → halted stops w = true → (s'.ws[k]?).map (·.pc) = some w.pc

/-- Executions with their number of steps. -/
inductive SRun {τ β : Type} (sync : Bool) (f : τ → β) (stops : τ → Bool) (tasks : List τ) : Nat → St τ β → St τ β → Prop where
  | nil (s) : SRun sync f stops tasks 0 s s
  | cons (k s s' s'') : SRun sync f stops tasks k s s' → SStep sync f stops tasks s' s'' → SRun sync f stops tasks (k + 1) s s''

/-- `map` returns on the ranks: the root has left its loop (238) and so have the groups, so that `allgather` (344) is called by all ranks. -/
def Returns {τ β : Type} (s : St τ β) : Prop := s.closed = s.ws.length ∧ ∀ w ∈ s.ws, match w.pc with | .exited => True | _ => False

/-- The argument `tasks` on the root: something with a length, or an iterator. The groups do not look at it. -/
inductive Tasks (τ : Type) where
  | list (l : List τ)
  | iterator (l : List τ)

/-- A step when the root has raised before its loop: nothing is taken from what the groups have sent. -/
structure LoneStep {τ β : Type} (sync : Bool) (f : τ → β) (tasks : List τ) (s s' : St τ β) : Prop where
  step : Step sync f tasks s s'
  deaf : ∀ (k : Nat) w w', s.ws[k]? = some w → s'.ws[k]? = some w' → w.out <+: w'.out

/-- The steps that are possible: `len(tasks)` raises on the root if `tasks` has no length (batch.py 229). -/
def TStep {τ β : Type} (sync : Bool) (f : τ → β) (stops : τ → Bool) : Tasks τ → St τ β → St τ β → Prop
  | .list l => SStep sync f stops l
  | .iterator l => LoneStep sync f l

/-- Executions with any argument. -/
inductive TReach {τ β : Type} (sync : Bool) (f : τ → β) (stops : τ → Bool) (arg : Tasks τ) : St τ β → St τ β → Prop where
  | refl (s) : TReach sync f stops arg s s
  | step (s s' s'') : TReach sync f stops arg s s' → TStep sync f stops arg s' s'' → TReach sync f stops arg s s''

end NBK.TaskStop
