import Verif.Model.Script
import Verif.Model.AsyncSession

/-!
# Model of the program `examples/asyncsession.cpp`

The menus are those of `filesession.cpp` (`Model/Script`); the session is that of `Model/AsyncSession` on a scheduler that owns its context. `Run` returns when, and only when, the scheduler has been stopped: its work guard keeps it waiting
otherwise (genericasioscheduler.h:73-83, `Model/AsioScheduler`). A handler that has not been called by then is not called any more.
-/

namespace Verif.Script
open Async (St Ev)

/-- asyncsession.cpp:65-117: as the application of `filesession.cpp`, with the session's exit action. The flag tells whether the scheduler has been stopped (115). -/
def asyncApp (p : Platform) : App (Unit × Bool) Storage.Volatile :=
  { FileSession.fileApp (app p) none with exitSession := some (fun s => ⟨(s.1, true), [.out bs!"Closing App...\n"], none⟩) }

/-- asyncsession.cpp:105-109. -/
def asyncCli (tty : Bool) : World (Unit × Bool) Storage.Volatile :=
  { app := ((), false), tree := tree, dis := fun _ => false, used := tree.ids, gen := 0, storage := Storage.Volatile.init 1000, io := ⟨⟨false, tty, false⟩, []⟩, casts := [], hist := History.init 0, current := 0, exit := false, log := [] }

abbrev AsyncSt := St (Unit × Bool) Storage.Volatile

/-- `Run` has returned; the program ends with code 0. -/
def ended (s : AsyncSt) : Bool := s.w.app.2

/-- asyncsession.cpp:110-111: the session is constructed. -/
def asyncStart (p : Platform) (tty : Bool) : Except Fault AsyncSt := Async.create (asyncApp p) (asyncCli tty) (asyncCli tty).io

/-- asyncsession.cpp:118 `scheduler.Run()`: what happens until it returns. An exception that leaves it ends the program with code -1. -/
def asyncRun (p : Platform) (fuel : Nat) : List Ev → AsyncSt → Except Fault (AsyncSt × Option Exn)
  | [], s => .ok (s, none)
  | e :: es, s =>
    if ended s then .ok (s, none)
    else
      match Async.step (asyncApp p) fuel s e with
      | .error f => .error f
      | .ok (s, some x) => .ok (s, some x)
      | .ok (s, none) => asyncRun p fuel es s

/-- The whole program, so far. -/
def asyncMain (p : Platform) (tty : Bool) (fuel : Nat) (es : List Ev) : Except Fault (AsyncSt × Option Exn) :=
  match asyncStart p tty with
  | .error f => .error f
  | .ok s => asyncRun p fuel es s

end Verif.Script
