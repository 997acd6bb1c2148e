import Verif.Model.Terminal

/-!
# Model of the Linux keyboard (`include/cli/detail/linuxkeyboard.h`): decoding, and the reader thread

For `winkeyboard.h` see `Model/WinKeyboard`.
-/

namespace Verif.Keyboard
open Terminal (Key)

/-- The places in `Get` at which a character is read. -/
inductive Pc where
  /-- line 174 -/
  | first
  /-- line 187, after ESC -/
  | esc
  /-- line 190, after `ESC [` -/
  | csi
  /-- line 194, after `ESC [ 3` -/
  | csi3
  deriving DecidableEq, Repr

/-- linuxkeyboard.h:170-215 `Get`, from one call of `GetChar` to the next (`inl`) or to the key returned (`inr`). The `switch` is on a `char`, so that byte 255 equals `EOF` (-1) where
    `char` is signed. The character that accompanies keys other than `ascii` is always a blank and never used. -/
def next (p : Platform) : Pc → Byte → Pc ⊕ Key
  | .first, ch =>
    if p.charSigned ∧ ch = 255 then .inr .eof               -- 177
    else if ch = 4 then .inr .eof                           -- 178
    else if ch = 127 ∨ ch = 8 then .inr .backspace          -- 181-183
    else if ch = 10 then .inr .ret                          -- 184
    else if ch = 12 then .inr .clear                        -- 185
    else if ch = 27 then .inl .esc                          -- 186-187
    else .inr (.ascii ch)                                   -- 208-212
  | .esc, ch => if ch = 91 then .inl .csi else .inr .ignored  -- 188, 214
  | .csi, ch =>
    if ch = 51 then .inl .csi3                              -- 193
    else if ch = 65 then .inr .up
    else if ch = 66 then .inr .down
    else if ch = 68 then .inr .left
    else if ch = 67 then .inr .right
    else if ch = 70 then .inr .end
    else if ch = 72 then .inr .home
    else .inr .ignored                                      -- 204
  | .csi3, ch => if ch = 126 then .inr .canc else .inr .ignored  -- 195-196

/-- The loop of `Read` (linuxkeyboard.h:142-160) on the bytes that `GetChar` returns: where it is after them, and the keys notified. -/
def decode (p : Platform) : Pc → Str → Pc × List Key
  | pc, [] => (pc, [])
  | pc, ch :: rest =>
    match next p pc ch with
    | .inl pc' => decode p pc' rest
    | .inr k => ((decode p .first rest).1, k :: (decode p .first rest).2)

/-! ### The reader thread -/

/-- Where the reader thread is. -/
inductive Reader where
  /-- waiting until enabled (149-150) -/
  | wait
  /-- in `select` (72), called from line 172 -/
  | select
  /-- calling `read` (165) at a place in `Get` -/
  | get (pc : Pc)
  /-- about to notify a key (153) -/
  | post (k : Key)
  /-- the function has returned (156-159) -/
  | ended
  deriving DecidableEq, Repr

/-- State of the keyboard and of what it shares with the rest of the world. `α` is the type of terminal attributes. -/
structure Kb (α : Type) where
  reader : Reader
  /-- linuxkeyboard.h:233 -/
  enabled : Bool
  /-- the shutdown pipe has been written (91) -/
  stopped : Bool
  /-- what has arrived at the standard input and has not been taken -/
  input : Str
  /-- the standard input is at its end (or `read` fails) once `input` has been taken -/
  closed : Bool
  /-- the keys posted to the scheduler, in order (inputdevice.h:59-62) -/
  posted : List Key
  /-- number of calls of `read` that have returned -/
  reads : Nat
  /-- the attributes of the terminal -/
  tty : α
  /-- linuxkeyboard.h:234 `oldt` -/
  oldt : α

/-- What may happen next. -/
inductive Ev (α : Type) where
  /-- the reader thread sees `enabled` and goes on (150) -/
  | check
  /-- `select` returns (72-86) -/
  | ready
  /-- `select` is interrupted by a signal: it returns -1 and leaves the sets as they were, with the bit of `readPipe` set, so that an exception is thrown (74-78) -/
  | signal
  /-- `read` returns (165) -/
  | getc
  /-- the reader thread posts the key (153) -/
  | post
  /-- `ActivateInput` (134-140) -/
  | activate
  /-- `DeactivateInput` (124-129) -/
  | deactivate
  /-- the destructor: `ToStandardMode` and `Stop` (116, 117) -/
  | stop
  /-- a byte arrives -/
  | arrive (b : Byte)
  /-- the standard input is closed -/
  | close
  /-- other code of the process (a command handler) takes a byte from the standard input -/
  | taken
  /-- other code sets the attributes of the terminal -/
  | setTty (a : α)

variable {α : Type}

/-- `manual a` is `a` without canonical mode and echo (224). `none`: the event is not possible in the state. The mutex is held during the check of `enabled` and during each of
    the assignments to it, which are therefore single steps. -/
def step (p : Platform) (manual : α → α) (s : Kb α) : Ev α → Option (Kb α)
  | .check => if s.reader = .wait ∧ s.enabled = true then some { s with reader := .select } else none
  | .ready =>
    if s.reader = .select then
      if s.stopped then some { s with reader := .ended }
      else if s.input ≠ [] ∨ s.closed then some { s with reader := .get .first } else none
    else none
  | .signal => if s.reader = .select then some { s with reader := .ended } else none
  | .getc =>
    match s.reader with
    | .get pc =>
      match s.input with
      | [] => if s.closed then some { s with reader := after pc 0, reads := s.reads + 1 } else none
      | c :: rest => some { s with reader := after pc c, reads := s.reads + 1, input := rest }
    | _ => none
  | .post =>
    match s.reader with
    | .post k => some { s with reader := .wait, posted := s.posted ++ [k] }
    | _ => none
  | .activate => some { s with enabled := true, oldt := s.tty, tty := manual s.tty }
  | .deactivate => some { s with enabled := false, tty := s.oldt }
  | .stop => some { s with stopped := true, tty := s.oldt }
  | .arrive b => if s.closed then none else some { s with input := s.input ++ [b] }
  | .close => some { s with closed := true }
  | .taken => if s.input = [] then none else some { s with input := s.input.tail }
  | .setTty a => some { s with tty := a }
where
  after (pc : Pc) (c : Byte) : Reader :=
    match next p pc c with
    | .inl pc' => .get pc'
    | .inr k => .post k

/-- A sequence of events. -/
def steps (p : Platform) (manual : α → α) : Kb α → List (Ev α) → Option (Kb α)
  | s, [] => some s
  | s, e :: es =>
    match step p manual s e with
    | none => none
    | some s' => steps p manual s' es

/-- linuxkeyboard.h:107-113: just constructed, with `ActivateInputImpl` executed. -/
def init (manual : α → α) (tty : α) : Kb α :=
  { reader := .wait, enabled := true, stopped := false, input := [], closed := false, posted := [], reads := 0, tty := manual tty, oldt := tty }

end Verif.Keyboard
