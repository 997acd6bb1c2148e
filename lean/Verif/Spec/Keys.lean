import Verif.Model.Terminal

/-!
# Specification: the bytes that keys send (ECMA-48/xterm)
-/

namespace Verif.Spec
open Terminal (Key)

/-- Bytes that stand for themselves: no control character with a meaning, and not 255 where `char` is signed. -/
def Plain (p : Platform) (c : Byte) : Prop := c ∉ ([4, 8, 10, 12, 27, 127] : Str) ∧ ¬ (p.charSigned = true ∧ c = 255)

/-- The key sends the bytes. -/
inductive Sends (p : Platform) : Key → Str → Prop
  | ascii {c} : Plain p c → Sends p (.ascii c) [c]
  | up : Sends p .up (27 :: bs!"[A")
  | down : Sends p .down (27 :: bs!"[B")
  | right : Sends p .right (27 :: bs!"[C")
  | left : Sends p .left (27 :: bs!"[D")
  | «end» : Sends p .end (27 :: bs!"[F")
  | home : Sends p .home (27 :: bs!"[H")
  | canc : Sends p .canc (27 :: bs!"[3~")
  | del : Sends p .backspace [127]
  | bs : Sends p .backspace [8]
  | ret : Sends p .ret bs!"\n"
  | clear : Sends p .clear [12]
  | eof : Sends p .eof [4]

end Verif.Spec
