import Verif.Model.Terminal

/-!
# Model of the keyboard on Windows (`include/cli/detail/winkeyboard.h`): decoding, and the reader thread

The console is taken as documented by Microsoft: its input buffer holds records of key presses and of other things (releases of keys, mouse, focus, size of the window); the handle of the standard input is signalled as long as
there is an unread record of any kind; `_getch` discards records until there is a key press (waiting for one if necessary), and for a function or arrow key returns 0 or 224 and, when called again, a second code.
`EOF`, which `_getch` never returns, and the failure of `WaitForMultipleObjects` are left out.
-/

namespace Verif.WinKeyboard
open Terminal (Key)

/-- A record of the console's input buffer. -/
inductive Rec where
  /-- a key press: what `_getch` returns, and what it returns when called again -/
  | press (first : Byte) (second : Option Byte)
  /-- anything else -/
  | other
  deriving DecidableEq, Repr

/-- Where the reader thread is in `Get`. -/
inductive Reader where
  /-- in `WaitForMultipleObjects` (65), called from line 133 -/
  | wait
  /-- in `_getch` (135) -/
  | first
  /-- in `_getch` (147), after 224 -/
  | symbol
  /-- about to notify a key (122) -/
  | post (k : Key)
  /-- the function has returned (125-128) -/
  | ended
  deriving DecidableEq, Repr

/-- winkeyboard.h:136-170, after the first code. -/
def decodeFirst (c : Byte) : Reader :=
  if c = 4 ∨ c = 26 ∨ c = 3 then .post .eof                 -- 139-142
  else if c = 224 then .symbol                              -- 145
  else if c = 8 then .post .backspace                       -- 160
  else if c = 12 then .post .clear                          -- 163
  else if c = 13 then .post .ret                            -- 166
  else .post (.ascii c)                                     -- 169-173

/-- winkeyboard.h:148-158, after the second code. -/
def decodeSymbol (c : Byte) : Key :=
  if c = 72 then .up
  else if c = 80 then .down
  else if c = 75 then .left
  else if c = 77 then .right
  else if c = 71 then .home
  else if c = 79 then .end
  else if c = 83 then .canc
  else .ignored                                             -- 157

/-- The keyboard, and the console. -/
structure Kb where
  reader : Reader
  /-- the second code of a key press, not yet returned by `_getch` -/
  carry : Option Byte
  /-- the input buffer -/
  records : List Rec
  /-- the stop event has been set (90) -/
  stopped : Bool
  /-- the keys posted to the scheduler, in order (inputdevice.h:59-62) -/
  posted : List Key
  deriving DecidableEq, Repr

/-- What may happen next. -/
inductive Ev where
  /-- `WaitForMultipleObjects` returns (65) -/
  | wake
  /-- `_getch` returns (135, 147) -/
  | getch
  /-- the reader thread posts the key (122) -/
  | post
  /-- the destructor calls `Stop` (109) -/
  | stop
  /-- a record arrives -/
  | arrive (r : Rec)
  deriving DecidableEq, Repr

/-- `_getch`: what it returns, and what remains. `none` while there is no key press. -/
def getch : Option Byte → List Rec → Option (Byte × Option Byte × List Rec)
  | some c, rs => some (c, none, rs)
  | none, [] => none
  | none, .press a b :: rs => some (a, b, rs)
  | none, .other :: rs => getch none rs

/-- One event; `none`: it is not possible in the state. If both objects are signalled, `WaitForMultipleObjects` returns the first one, the stop event. -/
def step (s : Kb) : Ev → Option Kb
  | .wake =>
    match s.reader with
    | .wait =>
      if s.stopped then some { s with reader := .ended }                               -- 74-77
      else if s.records ≠ [] then some { s with reader := .first }                     -- 80
      else none
    | _ => none
  | .getch =>
    match s.reader with
    | .first => (getch s.carry s.records).map fun (c, carry, rs) => { s with reader := decodeFirst c, carry := carry, records := rs }
    | .symbol => (getch s.carry s.records).map fun (c, carry, rs) => { s with reader := .post (decodeSymbol c), carry := carry, records := rs }
    | _ => none
  | .post =>
    match s.reader with
    | .post k => some { s with reader := .wait, posted := s.posted ++ [k] }
    | _ => none
  | .stop => if s.stopped then none else some { s with stopped := true }
  | .arrive r => some { s with records := s.records ++ [r] }

/-- A sequence of events. -/
def steps : Kb → List Ev → Option Kb
  | s, [] => some s
  | s, e :: es => (step s e).bind (steps · es)

/-- winkeyboard.h:102-106, the constructor. -/
def init : Kb := ⟨.wait, none, [], false, []⟩

end Verif.WinKeyboard
