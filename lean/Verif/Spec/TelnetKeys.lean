import Verif.Model.Terminal

/-!
# Specification: the bytes that keys send through a telnet client

A client in character mode sends what the keys send (ECMA-48/xterm), except that Enter is CR NUL or CR LF (RFC 854).
-/

namespace Verif.Spec
open Terminal (Key)

/-- The bytes below 255 that are no control character with a meaning. -/
def PlainT (c : Byte) : Prop := c ∉ ([4, 8, 12, 13, 27, 127, 255] : Str)

/-- The key sends the data bytes. -/
inductive SendsT : Key → Str → Prop
  | ascii {c} : PlainT c → SendsT (.ascii c) [c]
  | up : SendsT .up (27 :: bs!"[A")
  | down : SendsT .down (27 :: bs!"[B")
  | right : SendsT .right (27 :: bs!"[C")
  | left : SendsT .left (27 :: bs!"[D")
  | «end» : SendsT .end (27 :: bs!"[F")
  | home : SendsT .home (27 :: bs!"[H")
  | canc : SendsT .canc (27 :: bs!"[3~")
  | del : SendsT .backspace [127]
  | bs : SendsT .backspace [8]
  | enter0 : SendsT .ret [13, 0]
  | enter10 : SendsT .ret [13, 10]
  | clear : SendsT .clear [12]
  | eof : SendsT .eof [4]

/-- Keys that have no meaning for the line editor: Alt with a character, Insert, Page Up, Page Down. -/
inductive Meaningless : Str → Prop
  | alt {c} : c ≠ 91 → Meaningless [27, c]
  | insert : Meaningless (27 :: bs!"[2~")
  | pageUp : Meaningless (27 :: bs!"[5~")
  | pageDown : Meaningless (27 :: bs!"[6~")

end Verif.Spec
