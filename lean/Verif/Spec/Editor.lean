import Verif.Model.Terminal

/-!
# Specification of a line editor: a two-sided buffer
-/

namespace Verif.Spec
open Verif.Terminal

/-- The text before the cursor (nearest character first) and the text after it. -/
structure Zip where
  before : Str
  after : Str
  deriving DecidableEq, Repr

namespace Zip

def text (z : Zip) : Str := z.before.reverse ++ z.after

def ofLine (s : Str) : Zip := ⟨s.reverse, []⟩

def moveLeft (z : Zip) : Zip := match z.before with | [] => z | c :: b => ⟨b, c :: z.after⟩
def moveRight (z : Zip) : Zip := match z.after with | [] => z | c :: a => ⟨c :: z.before, a⟩

/-- Effect of a key on the buffer. Up, Down, Tab, Ctrl-D, Ctrl-L do not touch it. -/
def key (z : Zip) : Key → Zip
  | .ascii c => if c = b%'\t' then z else { z with before := c :: z.before }
  | .backspace => { z with before := z.before.tail }
  | .canc => { z with after := z.after.tail }
  | .left => z.moveLeft
  | .right => z.moveRight
  | .home => ⟨[], z.text⟩
  | .end => ⟨z.text.reverse, []⟩
  | .ret => ⟨[], []⟩
  | .up | .down | .eof | .ignored | .clear => z

/-- What a key asks the session to do. -/
def request (z : Zip) : Key → Symbol
  | .ascii c => if c = b%'\t' then .tab else .nothing
  | .ret => .command z.text
  | .up => .up
  | .down => .down
  | .eof => .eof
  | .clear => .clear
  | _ => .nothing

end Zip
end Verif.Spec
