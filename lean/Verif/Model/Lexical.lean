import Verif.Model.FromString

/-!
# Model of the variant of `include/cli/detail/fromstring.h` that uses Boost (fromstring.h:37-53, `CLI_FROMSTRING_USE_BOOST`)

There `from_string<T>(s)` is `boost::lexical_cast<T>(s)`. Boost does not belong to the repository; what it does is modelled by its documentation, in the classic locale (trusted): the whole string is converted;
`bad_lexical_cast`, which is derived from `std::bad_cast`, is thrown if this fails; integers have an optional sign, a minus sign being accepted for unsigned types too (the value is then that of unsigned arithmetic);
`bool` is 0 or 1; `char`, `signed char` and `unsigned char` take one character; strings are copied; other types are extracted from a stream that does not skip white space. A parameter of type `nullptr_t` does not
compile.
-/

namespace Verif.Lexical
open Verif.FromString

/-- What depends on the types: the conversion of a whole string to `float`, `double` and `long double` (index 0, 1, 2), and `operator>>` of the user's types, on a stream that does not skip white space, with the number of bytes consumed
    (`none` if the stream fails, or if the failure is thrown as `ios_base::failure`). -/
structure Boost where
  float : Nat → Str → Option Nat
  extract : Nat → Str → Except Exn (Option (Nat × Nat))

/-- A non-empty string of digits whose value is less than `bound`. -/
def digits (bound : Nat) (s : Str) : Option Nat :=
  if s ≠ [] ∧ s.all isDigit = true then
    let v := s.foldl (fun n c => n * 10 + (c.toNat - 48)) 0
    if v < bound then some v else none
  else none

/-- `lexical_cast` to an unsigned type of more than 8 bits: the sign is not part of the number, and `-` negates the result in the type. -/
def unsigned (w : Width) : Str → Option Nat
  | [] => none
  | c :: cs =>
    if c = b%'-' then (digits w.card cs).map (fun v => (w.card - v) % w.card)
    else if c = b%'+' then digits w.card cs
    else digits w.card (c :: cs)

/-- `lexical_cast` to a signed type of more than 8 bits. -/
def signed (w : Width) : Str → Option Int
  | [] => none
  | c :: cs =>
    if c = b%'-' then (digits (w.card / 2 + 1) cs).map (fun v : Nat => -(v : Int))
    else if c = b%'+' then (digits (w.card / 2) cs).map (fun v : Nat => (v : Int))
    else (digits (w.card / 2) (c :: cs)).map (fun v : Nat => (v : Int))

/-- `lexical_cast<bool>`: 0 or 1, with a sign (no minus for 1) and leading zeros. -/
def bool : Str → Option Bool
  | [] => none
  | c :: cs =>
    if c = b%'-' then (digits 1 cs).map (fun _ => false)
    else if c = b%'+' then (digits 2 cs).map (· == 1)
    else (digits 2 (c :: cs)).map (· == 1)

/-- One character. -/
def char : Str → Option Byte
  | [c] => some c
  | _ => none

/-- The value, or `bad_lexical_cast`. -/
def orBad {α : Type} : Option α → Except ConvErr α
  | none => .error .bad
  | some a => .ok a

/-- fromstring.h:44-49 `from_string<T>`. -/
def fromString (L : Boost) (ty : ParamTy) (s : Str) : Except ConvErr Value :=
  match ty with
  | .unsigned .w8 => (orBad (char s)).map (fun c => .int c.toNat)
  | .signed .w8 => (orBad (char s)).map (fun c => .int (toSigned .w8 c.toNat))
  | .unsigned w => (orBad (unsigned w s)).map (fun n : Nat => .int (n : Int))
  | .signed w => (orBad (signed w s)).map .int
  | .bool => (orBad (bool s)).map .bool
  | .char => (orBad (char s)).map .char
  | .string => .ok (.str s)
  | .float k => (orBad (L.float k s)).map (.float k)
  | .custom k =>
    match L.extract k s with
    | .error e => .error (.exn e)
    | .ok (some (v, sz)) => if sz = s.length then .ok (.custom k v) else .error .bad
    | .ok none => .error .bad
  -- does not compile; never used
  | .null => .error .bad

end Verif.Lexical
