import Verif.Model.Style

/-!
# Model of the line editor `detail::Terminal` (`include/cli/detail/terminal.h`)
-/

namespace Verif.Terminal

/-- inputdevice.h:42 `KeyType`, with the character that comes with `ascii`. (The character is ignored for the
    other key types.) -/
inductive Key where
  | ascii (c : Byte) | up | down | left | right | backspace | canc | home | «end» | ret | eof | ignored | clear
  deriving DecidableEq, Repr

/-- terminal.h:42-51 `Symbol` with the string returned next to it (non-empty only for `command`). -/
inductive Symbol where
  | nothing | command (s : Str) | up | down | tab | eof | clear
  deriving DecidableEq, Repr

/-- terminal.h:212-213. -/
structure Term where
  line : Str
  pos : Nat
  deriving DecidableEq, Repr

/-- `std::string(n, c)`. -/
def rep (n : Nat) (c : Byte) : Str := List.replicate n c

/-- `'\b'` -/
def bs : Byte := 8

/-- `std::string(line.begin() + pos, line.end())`: undefined when `pos` is beyond the end. -/
def suffix (line : Str) (pos : Nat) : Except Fault Str :=
  if pos ≤ line.length then .ok (line.drop pos) else .error (.ub .outOfRange)

/-- `line.erase(line.begin() + pos)`: undefined unless `pos` denotes an element. -/
def eraseAt (line : Str) (pos : Nat) : Except Fault Str :=
  if pos < line.length then .ok (line.eraseIdx pos) else .error (.ub .outOfRange)

/-- `line.insert(line.begin() + pos, c)`. -/
def insertAt (line : Str) (pos : Nat) (c : Byte) : Except Fault Str :=
  if pos ≤ line.length then .ok (line.take pos ++ c :: line.drop pos) else .error (.ub .outOfRange)

/-- `std::string(a - b, c)` with unsigned subtraction: a wrapped size makes the constructor throw `length_error`; the
    model reports it as a fault. -/
def repSub (a b : Nat) (c : Byte) : Except Fault Str :=
  if b ≤ a then .ok (rep (a - b) c) else .error (.ub .outOfRange)

/-- terminal.h:59 `ResetCursor`. -/
def resetCursor (t : Term) : Term := { t with pos := 0 }

/-- terminal.h:63-80 `SetLine`. -/
def setLine (t : Term) (io : Io) (newLine : Str) : Term × Io :=
  let io := ((io.beforeInput.put (rep t.pos bs)).put newLine).afterInput
  let io :=
    if newLine.length < t.line.length then
      (io.put (rep (t.line.length - newLine.length) b%' ')).put (rep (t.line.length - newLine.length) bs)
    else io
  (⟨newLine, newLine.length⟩, io)

/-- terminal.h:84-209 `Keypressed`. -/
def keypressed (t : Term) (io : Io) (k : Key) : Except Fault (Term × Io × Symbol) :=
  match k with
  | .eof => .ok (t, io, .eof)                                                     -- 88-90
  | .backspace =>                                                                   -- 91-110
    if t.pos = 0 then .ok (t, io, .nothing)
    else do
      let pos := t.pos - 1
      let line ← eraseAt t.line pos
      let rest ← suffix line pos
      let back ← repSub (line.length + 1) pos bs
      .ok (⟨line, pos⟩, (((io.put [bs]).put rest).put [b%' ']).put back, .nothing)
  | .up => .ok (t, io, .up)                                                       -- 111-113
  | .down => .ok (t, io, .down)                                                   -- 114-116
  | .left =>                                                                        -- 117-123
    if t.pos > 0 then .ok ({ t with pos := t.pos - 1 }, io.put [bs], .nothing) else .ok (t, io, .nothing)
  | .right =>                                                                       -- 124-132
    if h : t.pos < t.line.length then
      .ok ({ t with pos := t.pos + 1 }, ((io.beforeInput).put [t.line[t.pos]]).afterInput, .nothing)
    else .ok (t, io, .nothing)
  | .ret => .ok (⟨[], 0⟩, io.put bs!"\r\n", .command t.line)                      -- 133-141
  | .ascii c =>                                                                     -- 142-166
    if c = b%'\t' then .ok (t, io, .tab)
    else do
      let rest ← suffix t.line t.pos
      let back ← repSub t.line.length t.pos bs
      let line ← insertAt t.line t.pos c
      .ok (⟨line, t.pos + 1⟩, ((((io.beforeInput).put [c]).put rest).afterInput).put back, .nothing)
  | .canc =>                                                                        -- 167-183
    if t.pos = t.line.length then .ok (t, io, .nothing)
    else do
      let rest ← suffix t.line (t.pos + 1)
      let back ← repSub t.line.length t.pos bs
      let line ← eraseAt t.line t.pos
      .ok (⟨line, t.pos⟩, ((io.put rest).put [b%' ']).put back, .nothing)
  | .end => do                                                                      -- 184-193
    let rest ← suffix t.line t.pos
    .ok ({ t with pos := t.line.length }, ((io.beforeInput).put rest).afterInput, .nothing)
  | .home => .ok ({ t with pos := 0 }, io.put (rep t.pos bs), .nothing)           -- 194-199
  | .clear => .ok (t, io, .clear)                                                 -- 200-202
  | .ignored => .ok (t, io, .nothing)                                             -- 203-205

end Verif.Terminal
