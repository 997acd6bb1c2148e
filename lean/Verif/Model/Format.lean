import Verif.Model.Session

/-!
# Model of formatted output

In the other models the text that the library inserts into a session's stream is appended to its output as it is. Here the stream has the formatting state of a `std::ostream`, which the user's commands can change (they are given
the session's stream), and which stays as they leave it, since the library neither saves nor resets it. Not modelled: locales other than "C", and streams that throw on failure (`exceptions()`).
-/

namespace Verif.Format

/-- `std::ios_base::basefield`; anything but `oct` and `hex` means decimal. -/
inductive Base where
  | dec
  | oct
  | hex
  deriving DecidableEq, Repr

/-- `std::ios_base::adjustfield`; nothing set means `right`. -/
inductive Adjust where
  | right
  | left
  | internal
  deriving DecidableEq, Repr

/-- The formatting state of a stream, and what decides whether colour codes are written (`Model/Style`). -/
structure Fmt where
  /-- `good()` -/
  good : Bool
  width : Nat
  fill : Byte
  adjust : Adjust
  base : Base
  showpos : Bool
  showbase : Bool
  uppercase : Bool
  tty : Bool
  forced : Bool
  deriving DecidableEq, Repr

/-- A stream: its state and what has been written to it. -/
structure Stream where
  fmt : Fmt
  text : Str
  deriving DecidableEq, Repr

/-- A digit of a number. -/
def digit (uppercase : Bool) (d : Nat) : Byte := if d < 10 then UInt8.ofNat (48 + d) else UInt8.ofNat ((if uppercase then 55 else 87) + d)

/-- The digits of a number in a base. -/
def digits (uppercase : Bool) (base n : Nat) : Str :=
  if 2 ≤ base ∧ base ≤ n then digits uppercase base (n / base) ++ [digit uppercase (n % base)] else [digit uppercase (n % base)]
termination_by n
decreasing_by exact Nat.div_lt_self (by omega) (by omega)

/-- `std::num_put`: what is written before the digits (between the two the padding is inserted if `adjust` is `internal`), and the digits. `signed`: the number has a signed type; a sign is written for decimal numbers of signed types
    only. The `0` before octal numbers belongs to the digits. -/
def number (f : Fmt) (signed : Bool) (n : Nat) : Str × Str :=
  match f.base with
  | .dec => (if f.showpos && signed then bs!"+" else [], digits f.uppercase 10 n)
  | .oct => ([], (if f.showbase && n != 0 then bs!"0" else []) ++ digits f.uppercase 8 n)
  | .hex => (if f.showbase && n != 0 then (if f.uppercase then bs!"0X" else bs!"0x") else [], digits f.uppercase 16 n)

/-- Padding to the width. -/
def pad (f : Fmt) (pre body : Str) : Str :=
  let p := List.replicate (f.width - (pre.length + body.length)) f.fill
  match f.adjust with
  | .left => pre ++ body ++ p
  | .right => p ++ pre ++ body
  | .internal => pre ++ p ++ body

/-- A formatted output operation: nothing if the stream is not good; the width is reset. -/
def insert (s : Stream) (pre body : Str) : Stream := if s.fmt.good then ⟨{ s.fmt with width := 0 }, s.text ++ pad s.fmt pre body⟩ else s

/-- What the library inserts. -/
inductive Item where
  /-- a string or a character -/
  | text (t : Str)
  /-- an identifier in the history (history.h:119), a `std::size_t` -/
  | id (n : Nat)
  /-- a colour or a style (rang.h:271-281) -/
  | sgr (n : Nat)
  /-- `forceColor` (rang.h:283-293) -/
  | force
  deriving DecidableEq, Repr

/-- rang.h:251-255 writes the code as an `int`. -/
def put (s : Stream) : Item → Stream
  | .text t => insert s [] t
  | .id n => insert s (number s.fmt false n).1 (number s.fmt false n).2
  | .sgr n =>
    if s.fmt.forced || s.fmt.tty then
      let s := insert s [] [27, b%'[']
      let s := insert s (number s.fmt true n).1 (number s.fmt true n).2
      insert s [] bs!"m"
    else s
  | .force => { s with fmt := { s.fmt with forced := true } }

def puts (s : Stream) (is : List Item) : Stream := is.foldl put s

/-- cli.h:946-950, colorprofile.h:48-58: what `Prompt` inserts. -/
def promptItems (color : Bool) (prompt : Str) : List Item := (if color then [.force, .sgr 32, .sgr 1] else []) ++ [.text prompt, .sgr 0, .text bs!"> "]

/-- terminal.h:151-158: what is inserted when a character is typed before the text `rest`. -/
def echoItems (color : Bool) (c : Byte) (rest : Str) : List Item := (if color then [.force, .sgr 97] else []) ++ [.text [c], .text rest, .sgr 0, .text (List.replicate rest.length 8)]

/-- history.h:112-122 `Show`, with the identifiers. -/
def historyItems (l : List (Nat × Str)) : List Item := [.text bs!"\n"] ++ l.flatMap (fun e => [.id e.1, .text bs!"\t", .text e.2, .text bs!"\n"]) ++ [.text bs!"\n"]

/-- cli.h:225 -/
def wrongItems (line : Str) : List Item := [.text bs!"wrong command: ", .text line, .text bs!"\n"]

end Verif.Format
