import Verif.Model.Keyboard
import Verif.Model.Processor

/-!
# Model of `CliLocalTerminalSession` (`include/cli/clilocalsession.h`): keyboard, scheduler and session together

The reader thread of the keyboard (`Model/Keyboard`) runs beside the thread of the scheduler, which executes the posted key presses one after the other, in the order of posting (this is so for one thread in
`LoopScheduler::Run`, see C51). The session is created before the scheduler runs, and destroyed by the scheduler's thread or after it has left the scheduler.
-/

namespace Verif.Local
open Terminal (Key)

/-- A session with its keyboard. `α` is the type of terminal attributes. -/
structure St (σ τ α : Type) where
  kb : Keyboard.Kb α
  proc : Processor.Proc σ τ
  /-- how many of the posted key presses have been handled -/
  handled : Nat
  /-- the scheduler's thread is executing a command, between `DeactivateInput` and `ActivateInput` (commandprocessor.h:106-109) -/
  busy : Bool
  /-- the destructor has not been called -/
  live : Bool

/-- What can happen. -/
inductive Ev (α : Type) where
  /-- a step of the reader thread or of its environment, see `Model/Keyboard` -/
  | kb (e : Keyboard.Ev α)
  /-- the scheduler executes the next key press (inputdevice.h:59-62, commandprocessor.h:70, 80-84), a command up to the call of `ActivateInput` -/
  | task
  /-- the command has been executed: `ActivateInput` (commandprocessor.h:109) -/
  | done
  /-- the session's destructor is called (linuxkeyboard.h:114-119; the processor's is trivial) -/
  | destroy

section
variable {σ τ α : Type} (A : App σ τ)

/-- Steps that are not caused by the session. -/
def ownStep : Keyboard.Ev α → Bool
  | .activate | .deactivate | .stop => false
  | _ => true

/-- One event; `none` if it is not possible in the state, with the exception that leaves the scheduler, if any. A key press that is executed uses the session (`this`), which must exist;
    after its destructor has been called, one can be executed when the destructor has returned, that is when the reader thread has ended (`join`, linuxkeyboard.h:118). -/
def step (fuel : Nat) (p : Platform) (manual : α → α) (s : St σ τ α) : Ev α → Except Fault (Option (St σ τ α × Option Exn))
  | .kb e =>
    if ownStep e then
      match Keyboard.step p manual s.kb e with
      | none => .ok none
      | some k => .ok (some ({ s with kb := k }, none))
    else .ok none
  | .task =>
    if s.busy then .ok none
    else match s.kb.posted[s.handled]? with
      | none => .ok none
      | some key =>
        if s.live then
          match Processor.keypressed A fuel s.proc key with
          | .error f => .error f
          | .ok (q, x) =>
            let s' := { s with proc := q, handled := s.handled + 1 }
            if key = .ret then
              -- commandprocessor.h:106; linuxkeyboard.h:124-129
              .ok (some ({ s' with kb := { s.kb with enabled := false, tty := s.kb.oldt }, busy := x.isNone }, x))
            else .ok (some (s', x))
        else if s.kb.reader = .ended then .error (.ub .dangling) else .ok none
  | .done =>
    if s.busy then
      match Keyboard.step p manual s.kb .activate with
      | none => .ok none
      | some k => .ok (some ({ s with kb := k, busy := false }, none))
    else .ok none
  | .destroy =>
    if s.busy ∨ s.live = false then .ok none
    else match Keyboard.step p manual s.kb .stop with
      | none => .ok none
      | some k => .ok (some ({ s with kb := k, live := false }, none))

/-- A sequence of events; an exception leaves the scheduler. -/
def run (fuel : Nat) (p : Platform) (manual : α → α) : List (Ev α) → St σ τ α → Except Fault (Option (St σ τ α × Option Exn))
  | [], s => .ok (some (s, none))
  | e :: es, s =>
    match step A fuel p manual s e with
    | .error f => .error f
    | .ok none => .ok none
    | .ok (some (s, some x)) => .ok (some (s, some x))
    | .ok (some (s, none)) => run fuel p manual es s

/-- clilocalsession.h:63-70, the constructor: the session, the keyboard, the processor, then `Enter` and `Prompt`. At this time the session has the enter action it is born with, which does nothing (cli.h:387). -/
def create (manual : α → α) (tty : α) (n : Nat) (w : World σ τ) (io : Io) : Except Fault (St σ τ α × Option Exn) :=
  match enterSession { A with enterSession := none } (newSession A n w io) with
  | (w, some e) => .ok (⟨Keyboard.init manual tty, ⟨w, ⟨[], 0⟩, true⟩, 0, false, true⟩, some e)
  | (w, none) =>
    match prompt w with
    | .error f => .error f
    | .ok w => .ok (⟨Keyboard.init manual tty, ⟨w, ⟨[], 0⟩, true⟩, 0, false, true⟩, none)

end
end Verif.Local
