import Verif.Model.LocalSession

/-!
# Model of a whole program: a local session whose exit action stops the scheduler

This is the program of the examples (`examples/complete.cpp`:268-286, without the telnet server; `examples/pluginmanager.cpp`:315-333): `main` constructs a `LoopScheduler` and a
`CliLocalTerminalSession`, sets an exit action that calls `scheduler.Stop()`, and calls `scheduler.Run()`; when it returns, the session is destroyed and the program ends. The threads are the main thread and the reader
thread of the keyboard.
-/

namespace Verif.Program

/-- Where the main thread is. -/
inductive Phase where
  /-- in `LoopScheduler::Run` (loopscheduler.h:66-69) -/
  | run
  /-- `Run` has returned -/
  | returned
  /-- in the destructor of the session, waiting for the reader thread (linuxkeyboard.h:116-118) -/
  | joining
  /-- `main` has returned -/
  | over
  deriving DecidableEq, Repr

/-- The program. -/
structure St (σ τ α : Type) where
  loc : Local.St σ τ α
  phase : Phase

/-- What can happen. -/
inductive Ev (α : Type) where
  /-- a step of the reader thread or of its environment, see `Model/Keyboard` -/
  | kb (e : Keyboard.Ev α)
  /-- `ExecOne` (loopscheduler.h:84-100) takes the next posted key press and executes it (a command up to the call of `ActivateInput`) -/
  | task
  /-- the command has been executed: `ActivateInput` (commandprocessor.h:109) -/
  | done
  /-- `ExecOne` returns false, and `Run` returns -/
  | ret
  /-- the destructor of the session is called -/
  | destroy
  /-- the reader thread has been joined, and `main` returns -/
  | join

section
variable {σ τ α : Type} (A : App σ τ)

/-- One event; `none` if it is not possible in the state, with the exception that leaves the scheduler, if any. `stopped` tells from the state of the user's code whether it has called `Stop`
    (loopscheduler.h:59-64), which sets `running` to false. `ExecOne` returns false if `running` is false, whether tasks are left or not (loopscheduler.h:88-90). -/
def step (stopped : σ → Bool) (fuel : Nat) (p : Platform) (manual : α → α) (s : St σ τ α) : Ev α → Except Fault (Option (St σ τ α × Option Exn))
  | .kb e => lift (Local.step A fuel p manual s.loc (.kb e))
  | .task => if s.phase = .run ∧ stopped s.loc.proc.w.app = false then lift (Local.step A fuel p manual s.loc .task) else .ok none
  | .done => if s.phase = .run then lift (Local.step A fuel p manual s.loc .done) else .ok none
  | .ret => if s.phase = .run ∧ s.loc.busy = false ∧ stopped s.loc.proc.w.app = true then .ok (some ({ s with phase := .returned }, none)) else .ok none
  | .destroy =>
    if s.phase = .returned then
      match Keyboard.step p manual s.loc.kb .stop with
      | none => .ok none
      | some k => .ok (some (⟨{ s.loc with kb := k }, .joining⟩, none))
    else .ok none
  | .join => if s.phase = .joining ∧ s.loc.kb.reader = .ended then .ok (some ({ s with phase := .over }, none)) else .ok none
where
  lift : Except Fault (Option (Local.St σ τ α × Option Exn)) → Except Fault (Option (St σ τ α × Option Exn))
    | .error f => .error f
    | .ok none => .ok none
    | .ok (some (l, x)) => .ok (some ({ s with loc := l }, x))

/-- A sequence of events; an exception leaves the scheduler (and ends the program). -/
def run (stopped : σ → Bool) (fuel : Nat) (p : Platform) (manual : α → α) : List (Ev α) → St σ τ α → Except Fault (Option (St σ τ α × Option Exn))
  | [], s => .ok (some (s, none))
  | e :: es, s =>
    match step A stopped fuel p manual s e with
    | .error f => .error f
    | .ok none => .ok none
    | .ok (some (s, some x)) => .ok (some (s, some x))
    | .ok (some (s, none)) => run stopped fuel p manual es s

end
end Verif.Program
