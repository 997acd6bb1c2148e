import Verif.Model.LocalSession

/-!
# Model of the construction of a `CliLocalTerminalSession` (`include/cli/clilocalsession.h`:63-70)

`Model/LocalSession` takes the constructor as one step. Here it is taken apart: the reader thread of the keyboard runs from the moment the keyboard is constructed and posts the keys it reads, and the thread that runs the
scheduler may be another one than the thread that constructs the session.

Two accesses that are not ordered by synchronisation are a data race in C++ whenever they happen; here only those that overlap are counted, so that every one found here is one.
-/

namespace Verif.Creation

/-- Where the constructor is. -/
inductive Phase where
  /-- the session and the keyboard have been constructed (clilocalsession.h:64-65), with the reader thread (linuxkeyboard.h:110-112); `InputDevice::handler` is empty -/
  | started
  /-- in `Register`, which assigns `handler` (inputdevice.h:54, commandprocessor.h:70) -/
  | registering
  | registered
  /-- in `Enter` (clilocalsession.h:68) -/
  | entering
  | entered
  /-- in `Prompt` (clilocalsession.h:69) -/
  | prompting
  /-- the constructor has returned -/
  | ready
  /-- `Enter` has thrown: the keyboard is being destroyed or has been (linuxkeyboard.h:114-119), and the exception is passed on to the caller of the constructor -/
  | failed
  deriving DecidableEq, Repr

/-- The constructor is reading or writing members of the session that the handling of a key uses: `handler`, the stream, the current menu. -/
def Phase.inside : Phase → Bool
  | .registering | .entering | .prompting => true
  | _ => false

/-- A session being constructed: `proc` is as in `Model/LocalSession`. -/
structure St (σ τ α : Type) where
  loc : Local.St σ τ α
  phase : Phase

/-- What can happen. -/
inductive Ev (α : Type) where
  /-- the constructor goes on -/
  | go
  /-- something that `Model/LocalSession` knows -/
  | loc (e : Local.Ev α)

section
variable {σ τ α : Type} (A : App σ τ)

/-- clilocalsession.h:63-65: the session and the keyboard. -/
def begin (manual : α → α) (tty : α) (n : Nat) (w : World σ τ) (io : Io) : St σ τ α :=
  ⟨⟨Keyboard.init manual tty, ⟨newSession A n w io, ⟨[], 0⟩, true⟩, 0, false, true⟩, .started⟩

/-- clilocalsession.h:66-70: the next step of the constructor. A command may be executed by another thread meanwhile (`busy`). -/
def go (p : Platform) (manual : α → α) (s : St σ τ α) : Except Fault (Option (St σ τ α)) :=
  match s.phase with
  | .started => .ok (some { s with phase := .registering })
  | .registering => .ok (some { s with phase := .registered })
  | .registered => if s.loc.busy then .error (.ub .dataRace) else .ok (some { s with phase := .entering })
  | .entering =>
    match enterSession { A with enterSession := none } s.loc.proc.w with
    | (w, none) => .ok (some ⟨{ s.loc with proc := { s.loc.proc with w := w } }, .entered⟩)
    | (w, some _) =>
      -- the members that have been constructed are destroyed
      match Keyboard.step p manual s.loc.kb .stop with
      | none => .ok none
      | some k => .ok (some ⟨{ s.loc with proc := { s.loc.proc with w := w }, kb := k, live := false }, .failed⟩)
  | .entered => if s.loc.busy then .error (.ub .dataRace) else .ok (some { s with phase := .prompting })
  | .prompting =>
    match prompt s.loc.proc.w with
    | .error f => .error f
    | .ok w => .ok (some ⟨{ s.loc with proc := { s.loc.proc with w := w } }, .ready⟩)
  | .ready | .failed => .ok none

/-- One event, as in `Model/LocalSession`. `other`: the scheduler is run by another thread than the one that constructs the session, so that keys can be executed meanwhile. -/
def step (other : Bool) (fuel : Nat) (p : Platform) (manual : α → α) (s : St σ τ α) : Ev α → Except Fault (Option (St σ τ α × Option Exn))
  | .go =>
    match go A p manual s with
    | .error f => .error f
    | .ok none => .ok none
    | .ok (some s) => .ok (some (s, none))
  | .loc (.kb e) => lift (Local.step A fuel p manual s.loc (.kb e))
  | .loc .task =>
    if s.phase = .ready ∨ s.phase = .failed then lift (Local.step A fuel p manual s.loc .task)
    else if other then
      if s.loc.busy then .ok none
      else match s.loc.kb.posted[s.loc.handled]? with
        | none => .ok none
        | some _ =>
          if s.phase.inside then .error (.ub .dataRace)
          else if s.phase = .started then .ok (some (⟨{ s.loc with handled := s.loc.handled + 1 }, s.phase⟩, none))      -- inputdevice.h:61: `handler` is empty
          else lift (Local.step A fuel p manual s.loc .task)
    else .ok none
  | .loc .done => lift (Local.step A fuel p manual s.loc .done)
  | .loc .destroy => if s.phase = .ready then lift (Local.step A fuel p manual s.loc .destroy) else .ok none
where
  lift : Except Fault (Option (Local.St σ τ α × Option Exn)) → Except Fault (Option (St σ τ α × Option Exn))
    | .error f => .error f
    | .ok none => .ok none
    | .ok (some (l, x)) => .ok (some ({ s with loc := l }, x))

/-- A sequence of events; an exception leaves the scheduler. -/
def run (other : Bool) (fuel : Nat) (p : Platform) (manual : α → α) : List (Ev α) → St σ τ α → Except Fault (Option (St σ τ α × Option Exn))
  | [], s => .ok (some (s, none))
  | e :: es, s =>
    match step A other fuel p manual s e with
    | .error f => .error f
    | .ok none => .ok none
    | .ok (some (s, some x)) => .ok (some (s, some x))
    | .ok (some (s, none)) => run other fuel p manual es s

end
end Verif.Creation
