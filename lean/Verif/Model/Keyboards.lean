import Verif.Model.Keyboard

/-!
# Several Linux keyboards in one process

Every `CliLocalTerminalSession` has a `LinuxKeyboard` of its own (clilocalsession.h:44, 65), with a reader thread and the attributes it has found when it changed them (linuxkeyboard.h:218-230, 234). They share the standard input (165) and
the terminal. The steps of each are those of `Model/Keyboard`.
-/

namespace Verif.Keyboards
open Keyboard (Kb)

variable {α : Type}

/-- The keyboards in the order of their construction (those that have been destroyed are not removed), and what they share. -/
structure St (α : Type) where
  kbs : List (Kb α)
  /-- what has arrived at the standard input and has not been read -/
  input : Str
  /-- the attributes of the terminal -/
  tty : α

/-- What may happen next. -/
inductive Ev (α : Type) where
  /-- a keyboard is constructed (linuxkeyboard.h:107-113) -/
  | new
  /-- a step of the reader thread of keyboard `i`, or a call of `ActivateInput`, `DeactivateInput` or the destructor -/
  | kb (i : Nat) (e : Keyboard.Ev α)
  /-- a byte is typed -/
  | arrive (b : Byte)
  /-- other code sets the attributes of the terminal -/
  | setTty (a : α)

/-- The steps that belong to one keyboard. -/
def own : Keyboard.Ev α → Bool
  | .check | .ready | .getc | .post | .activate | .deactivate | .stop => true
  | _ => false

/-- A keyboard with what it shares. -/
def seen (s : St α) (k : Kb α) : Kb α := { k with input := s.input, tty := s.tty }

def step (p : Platform) (manual : α → α) (s : St α) : Ev α → Option (St α)
  | .new => some { s with kbs := s.kbs ++ [Keyboard.init manual s.tty], tty := manual s.tty }
  | .kb i e =>
    if own e then
      match s.kbs[i]? with
      | none => none
      | some k =>
        match Keyboard.step p manual (seen s k) e with
        | none => none
        | some k' => some ⟨s.kbs.set i k', k'.input, k'.tty⟩
    else none
  | .arrive b => some { s with input := s.input ++ [b] }
  | .setTty a => some { s with tty := a }

/-- A sequence of events. -/
def steps (p : Platform) (manual : α → α) : St α → List (Ev α) → Option (St α)
  | s, [] => some s
  | s, e :: es =>
    match step p manual s e with
    | none => none
    | some s' => steps p manual s' es

/-- No keyboard yet. -/
def init (tty : α) : St α := ⟨[], [], tty⟩

end Verif.Keyboards
