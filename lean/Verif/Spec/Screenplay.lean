import Verif.Spec.Showcase
import Verif.Spec.Display

/-!
# What can be seen on the screen of the program `complete`

`Showcase` says what is written in answer to lines. Here is the whole of what the screen of the local session receives: the first prompt, each character as it is typed, and the answers.
-/

namespace Verif.Showcase

/-- How a character that is typed appears: in bright gray if colours are on; what comes after it resets the colours. -/
def Seat.echo (s : Seat) (c : Byte) : Str := (if s.colour then bs!"\x1b[97m" else []) ++ [c] ++ (if s.colour || s.escapes then bs!"\x1b[0m" else [])

def Seat.echoes (s : Seat) (l : Str) : Str := l.flatMap s.echo

/-- These lines, each ended by a newline. -/
def enter (ls : List Str) : Str := ls.flatMap (· ++ bs!"\n")

/-- Lines and the answers to them: the line as it is typed, the end of the line, what is written, and the next prompt. -/
inductive Dialogue (E : Env) : Seat → List Str → Seat → Str → Prop
  | nil {s} : Dialogue E s [] s []
  | line {s s' s'' l ls t o} : Answer E s l s' t → Dialogue E s'.prompted ls s'' o → Dialogue E s (l :: ls) s'' (s.echoes l ++ bs!"\r\n" ++ t ++ s'.prompt ++ o)

/-- What is on the screen of the local session or of a client, after the first prompt, when these characters have been typed. -/
inductive Scene (E : Env) (telnet : Bool) (s : Seat) : Str → Str → Prop
  /-- some lines, and the beginning of another one -/
  | typing {ls s' o l} : Dialogue E s ls s' o → (∀ l ∈ ls, Spec.Printable l) → Spec.Printable l → Scene E telnet s (enter ls ++ l) (o ++ s'.echoes l)
  /-- some lines, and one that ends the session -/
  | over {ls s' o l} : Dialogue E s ls s' o → (∀ l ∈ ls, Spec.Printable l) → Spec.Printable l → Quits s' l → Scene E telnet s (enter ls ++ (l ++ bs!"\n")) (o ++ s'.echoes l ++ bs!"\r\n" ++ farewell telnet)

end Verif.Showcase
