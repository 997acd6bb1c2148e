import Verif.Basic

/-!
# Model of `include/cli/detail/fromstring.h`: conversion of tokens to parameter types

The overflow test of the code works on the parameter type itself: `unsigned char`/`unsigned short` operands are promoted
to `int` (so the differences may be negative), `unsigned int` and wider wrap around. Both are modelled. `long` is 32 or 64
bit wide depending on the platform: it is covered by the corresponding width.

The variant of the header that uses `boost::lexical_cast` (fromstring.h:37-53, only with `CLI_FROMSTRING_USE_BOOST`) is in
`Model/Lexical`.
-/

namespace Verif.FromString

/-- Widths of the integral types. -/
inductive Width where
  | w8 | w16 | w32 | w64
  deriving DecidableEq, Repr

/-- Number of values of the unsigned type of that width, 2^bits. -/
def Width.card : Width → Nat
  | .w8 => 256
  | .w16 => 65536
  | .w32 => 4294967296
  | .w64 => 18446744073709551616

/-- Is the type promoted to `int` in arithmetic? -/
def Width.narrow : Width → Bool
  | .w8 | .w16 => true
  | .w32 | .w64 => false

/-- Why a conversion delivers no value: `bad_conversion` (fromstring.h:66-73), another exception (only user-defined
    extraction operators), undefined behaviour. -/
inductive ConvErr where
  | bad
  | exn (e : Exn)
  | ub (u : UB)
  deriving DecidableEq, Repr

/-- fromstring.h:101 `std::isdigit(c)` called with a `char`. -/
def isdigit (p : Platform) (c : Byte) : Except ConvErr Bool :=
  if p.ctypeUB c then .error (.ub .ctype) else .ok (isDigit c)

/-- fromstring.h:103-107: one step of the digit loop, `result` and `digit` being values of the type. -/
def digitStep (w : Width) (result digit : Nat) : Except ConvErr Nat :=
  -- `const T tmp = (result * 10) + digit;` (conversion to T is modular)
  let tmp := (result * 10 + digit) % w.card
  -- `(tmp-digit)/10`, in `int` for the narrow types and modular for the others
  let back : Int :=
    if w.narrow then Int.tdiv ((tmp : Int) - digit) 10
    else (((tmp + (w.card - digit)) % w.card / 10 : Nat) : Int)
  if (result : Int) ≠ back ∨ tmp < result then .error .bad
  else .ok tmp

/-- fromstring.h:99-108: the loop over the characters. -/
def digitsLoop (p : Platform) (w : Width) (result : Nat) : Str → Except ConvErr Nat
  | [] => .ok result
  | c :: cs => do
    let isd ← isdigit p c
    if !isd then throw .bad
    let r ← digitStep w result (c.toNat - 48)
    digitsLoop p w r cs

/-- fromstring.h:93-110 `unsigned_digits_from_string`. -/
def unsignedDigits (p : Platform) (w : Width) (s : Str) : Except ConvErr Nat :=
  if s = [] then .error .bad else digitsLoop p w 0 s

/-- fromstring.h:112-122 `unsigned_from_string`. -/
def unsignedFromString (p : Platform) (w : Width) : Str → Except ConvErr Nat
  | [] => .error .bad
  | c :: cs => if c = b%'+' then unsignedDigits p w cs else unsignedDigits p w (c :: cs)

/-- Value of a signed type of that width with the bit pattern `n` (`static_cast<T>(val)`). -/
def toSigned (w : Width) (n : Nat) : Int :=
  if n % w.card < w.card / 2 then ((n % w.card : Nat) : Int) else ((n % w.card : Nat) : Int) - (w.card : Int)

/-- Unary minus on a value of a signed type, as evaluated: in `int` for the narrow types (no overflow possible), otherwise in the type
    itself, where negating the minimum overflows. -/
def negate (p : Platform) (w : Width) (x : Int) : Except ConvErr Int :=
  if w.narrow then .ok (-x)
  else if x = -((w.card / 2 : Nat) : Int) then
    if p.strictOverflow then .error (.ub .signedOverflow) else .ok x
  else .ok (-x)

/-- Conversion of an integer value to the unsigned type (`static_cast<U>`). -/
def toUnsigned (w : Width) (x : Int) : Nat := (x % (w.card : Int)).toNat

/-- fromstring.h:124-147 `signed_from_string`. -/
def signedFromString (p : Platform) (w : Width) : Str → Except ConvErr Int
  | [] => .error .bad
  | c :: cs =>
    if c = b%'-' then do
      let val ← unsignedDigits p w cs
      let m ← negate p w (-((w.card / 2 : Nat) : Int))       -- `- min`
      if val > toUnsigned w m then throw .bad
      let r ← negate p w (toSigned w val)                    -- `- static_cast<T>(val)`
      return toSigned w (toUnsigned w r)                     -- conversion to the return type
    else do
      let val ← if c = b%'+' then unsignedDigits p w cs else unsignedDigits p w (c :: cs)
      if val > w.card / 2 - 1 then throw .bad
      return toSigned w val

/-- Types of command parameters. -/
inductive ParamTy where
  | unsigned (w : Width)
  | signed (w : Width)
  | bool
  | char
  | string
  /-- 0 = float, 1 = double, 2 = long double -/
  | float (k : Nat)
  /-- a type with a user-defined `operator>>` -/
  | custom (k : Nat)
  /-- `std::nullptr_t` -/
  | null
  deriving DecidableEq, Repr

/-- Values of parameters. -/
inductive Value where
  | int (i : Int)
  | bool (b : Bool)
  | char (c : Byte)
  | str (s : Str)
  | float (k : Nat) (v : Nat)
  | custom (k : Nat) (v : Nat)
  | null
  deriving DecidableEq, Repr

/-- fromstring.h:187-196 `from_string<bool>`. -/
def boolFromString (p : Platform) (s : Str) : Except ConvErr Bool :=
  if s = bs!"true" then .ok true
  else if s = bs!"false" then .ok false
  else do
    let value ← signedFromString p .w64 s
    if value = 1 then return true
    else if value = 0 then return false
    else throw .bad

/-- fromstring.h:200-205 `from_string<char>`. -/
def charFromString : Str → Except ConvErr Byte
  | [c] => .ok c
  | _ => .error .bad

/-- fromstring.h:212 `std::any_of(s.begin(), s.end(), isspace)`; stops at the first space. -/
def anySpace (p : Platform) : Str → Except ConvErr Bool
  | [] => .ok false
  | c :: cs =>
    if p.ctypeUB c then .error (.ub .ctype)
    else if isSpace c then .ok true
    else anySpace p cs

/-- fromstring.h:209-258 `from_string<float>`, `<double>`, `<long double>`. -/
def floatFromString (p : Platform) (k : Nat) (s : Str) : Except ConvErr Nat := do
  let sp ← anySpace p s
  if sp then throw .bad
  match p.parseFloat k s with
  | none => throw .bad
  | some (v, sz) => if sz ≠ s.length then throw .bad else return v

/-- fromstring.h:262-274, the generic `from_string`: `>>` then `>> std::ws` must reach the end. -/
def customFromString (p : Platform) (k : Nat) (s : Str) : Except ConvErr Nat :=
  match p.extract k s with
  | .error e => .error (.exn e)
  | .ok none => .error .bad
  | .ok (some (v, sz)) => if (s.drop sz).all isSpace then .ok v else .error .bad

/-- fromstring.h:75-274: `from_string<T>`. -/
def fromString (p : Platform) (ty : ParamTy) (s : Str) : Except ConvErr Value :=
  match ty with
  | .unsigned w => (unsignedFromString p w s).map (fun n : Nat => Value.int (n : Int))
  | .signed w => (signedFromString p w s).map .int
  | .bool => (boolFromString p s).map .bool
  | .char => (charFromString s).map .char
  | .string => .ok (.str s)
  | .float k => (floatFromString p k s).map (.float k)
  | .custom k => (customFromString p k s).map (.custom k)
  | .null => .ok .null

end Verif.FromString
