import Verif.Model.Program
import Verif.Model.Storage

/-!
# Model of a program with a local session on the application's own `io_context`

This is the program of `examples/standaloneasio_nonowner_iocontext.cpp` and `examples/boostasio_nonowner_iocontext.cpp` (lines 106-137, and 111-142): `main` constructs an `io_context`, starts operations on it (a timer,
lines 112-113) whose functions write to `std::cout`, and constructs a scheduler with the context (line 46; genericasioscheduler.h:56) and a local session on it (line 89), which writes to `std::cout` too. It holds a work
guard (119-123), so that `run` does not return for lack of work, and calls `run` (124). `Stop` of the scheduler stops the context, and resets no guard since it has none (genericasioscheduler.h:71-76): after that, `run`
executes no function, and returns when the one being executed does (asio's documentation, trusted as in `Model/AsioScheduler`). Then the session is destroyed (line 101; the keyboard's thread is joined), then the timer
and the context with what has not been executed.

So the program is the one of `Model/Program`, where `stopped` is now `io_context::stopped`, but its main thread also executes the application's own functions, between two key presses. They are modelled by the
text they write. Simplified: they do nothing else.
-/

namespace Verif.Hosted

/-- The program, and the texts of the application's functions that have not been executed. -/
structure St (σ τ α : Type) where
  prog : Program.St σ τ α
  own : List Str

/-- What can happen. -/
inductive Ev (α : Type) where
  /-- what can happen without the application's functions, see `Model/Program` -/
  | prog (e : Program.Ev α)
  /-- `run` executes the application's function at this place of the list: which of them is next is up to the operations (timers may expire in any order) -/
  | own (i : Nat)

section
variable {σ τ α : Type} (A : App σ τ)

/-- A text is written to the stream of the session (standaloneasio_nonowner_iocontext.cpp:113, `cout << "Timer expired!\n"`; the session has the same stream, line 89). -/
def write (s : Program.St σ τ α) (t : Str) : Program.St σ τ α := { s with loc := { s.loc with proc := { s.loc.proc with w := s.loc.proc.w.put t } } }

/-- One event; `none` if it is not possible in the state, with the exception that leaves `run`, if any. -/
def step (stopped : σ → Bool) (fuel : Nat) (p : Platform) (manual : α → α) (s : St σ τ α) : Ev α → Except Fault (Option (St σ τ α × Option Exn))
  | .prog e =>
    match Program.step A stopped fuel p manual s.prog e with
    | .error f => .error f
    | .ok none => .ok none
    | .ok (some (q, x)) => .ok (some (⟨q, s.own⟩, x))
  | .own i =>
    if s.prog.phase = .run ∧ s.prog.loc.busy = false ∧ stopped s.prog.loc.proc.w.app = false then
      match s.own[i]? with
      | none => .ok none
      | some t => .ok (some (⟨write s.prog t, s.own.eraseIdx i⟩, none))
    else .ok none

/-- A sequence of events; an exception leaves `run` (and ends the program, lines 128-136). -/
def run (stopped : σ → Bool) (fuel : Nat) (p : Platform) (manual : α → α) : List (Ev α) → St σ τ α → Except Fault (Option (St σ τ α × Option Exn))
  | [], s => .ok (some (s, none))
  | e :: es, s =>
    match step A stopped fuel p manual s e with
    | .error f => .error f
    | .ok none => .ok none
    | .ok (some (s, some x)) => .ok (some (s, some x))
    | .ok (some (s, none)) => run stopped fuel p manual es s

/-- The events without the application's functions. -/
def others : List (Ev α) → List (Program.Ev α)
  | [] => []
  | .prog e :: es => e :: others es
  | .own _ :: es => others es

end

/-! ### The application of the example -/

/-- The state of the user's code (standaloneasio_nonowner_iocontext.cpp:99): whether `scheduler.Stop()` has been called. -/
structure Iface where
  stopped : Bool
  deriving DecidableEq, Repr

def cmd (id : Id) (name desc : Str) : Cmd := ⟨id, name, .variadic [], id, desc, []⟩

/-- standaloneasio_nonowner_iocontext.cpp:48-72: the menu. -/
def tree : Tree :=
  ⟨⟨0, bs!"cli", bs!"(menu)", bs!"cli"⟩,
    .cmd (cmd 1 bs!"hello" bs!"Print hello world") (.cmd (cmd 2 bs!"color" bs!"Enable colors in the cli") (.cmd (cmd 3 bs!"nocolor" bs!"Disable colors in the cli") .nil))⟩

/-- standaloneasio_nonowner_iocontext.cpp:51, 55-61, 65-71: the functions of the commands. -/
def call (s : Iface) : Nat → Effect Iface
  | 1 => ⟨s, [.out bs!"Hello, world\n"], none⟩
  | 2 => ⟨s, [.out bs!"Colors ON\n", .color true, .disable 2, .enable 3], none⟩
  | 3 => ⟨s, [.out bs!"Colors OFF\n", .color false, .enable 2, .disable 3], none⟩
  | _ => ⟨s, [], none⟩

/-- standaloneasio_nonowner_iocontext.cpp:74-97: the `Cli` and the exit action of the session (91-95). There is no handler of wrong commands; the history is kept in memory (cli.h:139). -/
def app (p : Platform) : App Iface Storage.Volatile :=
  { plat := p
    handler := fun n s _ => call s n
    onException := some (fun s line e => ⟨s, [.out (bs!"Exception caught in cli handler: " ++ e.what ++ bs!" handling command: " ++ line ++ bs!".\n")], none⟩)
    onWrong := none
    enterGlobal := none
    exitGlobal := some (fun s => ⟨s, [.out bs!"Goodbye and thanks for all the fish.\n"], none⟩)
    enterSession := none
    exitSession := some (fun s => ⟨{ s with stopped := true }, [.out bs!"Closing App...\n"], none⟩)
    store := Storage.Volatile.store
    stored := Storage.Volatile.Commands }

/-- The `Cli` before there is a session: both commands are enabled (no line disables `nocolor`). -/
def cli : World Iface Storage.Volatile :=
  { app := ⟨false⟩, tree := tree, dis := fun _ => false, used := tree.ids, gen := 0, storage := Storage.Volatile.init 1000, io := ⟨⟨false, false, false⟩, []⟩, casts := [], hist := History.init 0, current := 0, exit := false, log := [] }

/-- standaloneasio_nonowner_iocontext.cpp:89: the session is constructed (`tty`: standard output is a terminal); the keyboard starts reading. -/
def interface {α : Type} (p : Platform) (manual : α → α) (old : α) (tty : Bool) : Except Fault (Local.St Iface Storage.Volatile α × Option Exn) :=
  Local.create (app p) manual old 200 cli ⟨⟨false, tty, false⟩, []⟩

/-- standaloneasio_nonowner_iocontext.cpp:112-113: the timer. -/
def timer : List Str := [bs!"Timer expired!\n"]

end Verif.Hosted
