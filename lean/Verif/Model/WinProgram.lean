import Verif.Model.WinKeyboard
import Verif.Model.Program

/-!
# Model of the program of `Model/Program` on Windows

The session has a `WinKeyboard` (keyboard.h:38-40, clilocalsession.h:73), which inherits the empty `ActivateInput` and `DeactivateInput` of `InputDevice` (inputdevice.h:51-52). The threads are the main thread and the reader thread
of the keyboard (winkeyboard.h:113-129). Simplified: Ctrl-L writes the sequences of `LinuxScreen` (on Windows it clears the console without writing to the stream, winscreen.h:43-55; see `Model/WinScreen`).
-/

namespace Verif.WinProgram
open Program (Phase)

/-- The program. -/
structure St (σ τ : Type) where
  kb : WinKeyboard.Kb
  proc : Processor.Proc σ τ
  /-- how many of the posted key presses have been handled -/
  handled : Nat
  /-- the main thread is executing a command, between `DeactivateInput` and `ActivateInput` (commandprocessor.h:106-109) -/
  busy : Bool
  phase : Phase

/-- What can happen. -/
inductive Ev where
  /-- a step of the reader thread or of the console, see `Model/WinKeyboard` -/
  | kb (e : WinKeyboard.Ev)
  /-- `ExecOne` (loopscheduler.h:84-100) takes the next posted key press and executes it (a command up to the call of `ActivateInput`) -/
  | task
  /-- the command has been executed -/
  | done
  /-- `ExecOne` returns false, and `Run` returns -/
  | ret
  /-- the destructor of the session is called, and calls `Stop` of the input source (winkeyboard.h:107-109) -/
  | destroy
  /-- the reader thread has been joined (winkeyboard.h:110), and `main` returns -/
  | join
  deriving DecidableEq, Repr

section
variable {σ τ : Type} (A : App σ τ)

/-- One event; `none` if it is not possible in the state, with the exception that leaves the scheduler, if any. `stopped` is as in `Model/Program`. -/
def step (stopped : σ → Bool) (fuel : Nat) (s : St σ τ) : Ev → Except Fault (Option (St σ τ × Option Exn))
  | .kb e =>
    if e = .stop then .ok none
    else match WinKeyboard.step s.kb e with
      | none => .ok none
      | some k => .ok (some ({ s with kb := k }, none))
  | .task =>
    if s.phase = .run ∧ stopped s.proc.w.app = false ∧ s.busy = false then
      match s.kb.posted[s.handled]? with
      | none => .ok none
      | some key =>
        match Processor.keypressed A fuel s.proc key with
        | .error f => .error f
        | .ok (q, x) => .ok (some ({ s with proc := q, handled := s.handled + 1, busy := decide (key = .ret) && x.isNone }, x))
    else .ok none
  | .done => if s.phase = .run ∧ s.busy = true then .ok (some ({ s with busy := false }, none)) else .ok none
  | .ret => if s.phase = .run ∧ s.busy = false ∧ stopped s.proc.w.app = true then .ok (some ({ s with phase := .returned }, none)) else .ok none
  | .destroy =>
    if s.phase = .returned then
      match WinKeyboard.step s.kb .stop with
      | none => .ok none
      | some k => .ok (some ({ s with kb := k, phase := .joining }, none))
    else .ok none
  | .join => if s.phase = .joining ∧ s.kb.reader = .ended then .ok (some ({ s with phase := .over }, none)) else .ok none

/-- A sequence of events; an exception leaves the scheduler (and ends the program). -/
def run (stopped : σ → Bool) (fuel : Nat) : List Ev → St σ τ → Except Fault (Option (St σ τ × Option Exn))
  | [], s => .ok (some (s, none))
  | e :: es, s =>
    match step A stopped fuel s e with
    | .error f => .error f
    | .ok none => .ok none
    | .ok (some (s, some x)) => .ok (some (s, some x))
    | .ok (some (s, none)) => run stopped fuel es s

/-- clilocalsession.h:63-70, the constructor: the session, the keyboard, the processor, then `Enter` and `Prompt` (as in `Model/LocalSession`); then `Run` is called. -/
def create (n : Nat) (w : World σ τ) (io : Io) : Except Fault (St σ τ × Option Exn) :=
  match enterSession { A with enterSession := none } (newSession A n w io) with
  | (w, some e) => .ok (⟨WinKeyboard.init, ⟨w, ⟨[], 0⟩, true⟩, 0, false, .run⟩, some e)
  | (w, none) =>
    match prompt w with
    | .error f => .error f
    | .ok w => .ok (⟨WinKeyboard.init, ⟨w, ⟨[], 0⟩, true⟩, 0, false, .run⟩, none)

end
end Verif.WinProgram
