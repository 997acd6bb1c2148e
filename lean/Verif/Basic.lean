/-!
# Basic vocabulary shared by the whole model

`char` is modelled by `UInt8`, `std::string` by `List UInt8`.
-/

namespace Verif

/-- A C++ `char` (one byte). -/
abbrev Byte := UInt8

/-- A C++ `std::string` (sequence of bytes). -/
abbrev Str := List Byte

open Lean in
/-- `b%'x'` is the byte of the ASCII character `x`. -/
macro:max "b%" c:char : term => do
  let n := c.getChar.toNat
  `(($(Syntax.mkNumLit (toString n)) : UInt8))

open Lean in
/-- `bs!"abc"` is the byte string (`List UInt8`) of an ASCII literal. -/
macro:max "bs!" s:str : term => do
  let elems ← s.getString.toList.toArray.mapM fun c =>
    `(($(Syntax.mkNumLit (toString c.toNat)) : UInt8))
  `(([$elems,*] : List UInt8))

/-- Reasons for undefined behaviour or failed assertions of the C++ code. -/
inductive UB where
  /-- `back()` / `pop_front()` / `operator[]` on an empty container -/
  | emptyContainer
  /-- `operator[]` or iterator arithmetic out of range -/
  | outOfRange
  /-- `<cctype>` function called with a negative value other than `EOF` -/
  | ctype
  /-- overflow of a signed integer -/
  | signedOverflow
  /-- dereference of a destroyed object -/
  | dangling
  /-- container modified while it is being iterated -/
  | iteratorInvalidation
  /-- an object is used by a thread while another one modifies it -/
  | dataRace
  /-- a failed `assert` that is not one of the above -/
  | assertion
  deriving DecidableEq, Repr

/-- Abnormal ends of an execution of the program itself (not C++ exceptions, which are modelled
    where they are thrown). -/
inductive Fault where
  | ub (why : UB)
  /-- the recursion does not end within the fuel given -/
  | stackOverflow
  deriving DecidableEq, Repr

/-- C++ exceptions, as far as the library's `catch` clauses distinguish them. -/
inductive Exn where
  /-- `std::bad_cast` or a class derived from it -/
  | badCast (what : Str)
  /-- any other class derived from `std::exception` -/
  | std (what : Str)
  /-- an object that is not a `std::exception` -/
  | other
  deriving DecidableEq, Repr

/-- Platform-dependent aspects of the C++ implementation that the code relies on. -/
structure Platform where
  /-- is plain `char` signed? -/
  charSigned : Bool
  /-- is signed overflow undefined (`true`) or does it wrap (`false`)? -/
  strictOverflow : Bool
  /-- `std::stof`/`stod`/`stold` (index 0/1/2): the value (an opaque token) and the number of bytes consumed;
      `none` models the exceptions `invalid_argument`/`out_of_range`. -/
  parseFloat : Nat → Str → Option (Nat × Nat)
  /-- `stream >> result` for a type (by index) with user-defined `operator>>`: the value (an opaque token) and the number of
      bytes consumed; `none` if the stream fails; or an exception thrown by the operator. -/
  extract : Nat → Str → Except Exn (Option (Nat × Nat))

/-- Calling `std::isspace(c)`/`std::isdigit(c)` with a `char` is undefined if the `char` is negative and different
    from `EOF` (= -1, byte 255). -/
def Platform.ctypeUB (p : Platform) (c : Byte) : Bool :=
  p.charSigned && decide (128 ≤ c.toNat) && decide (c.toNat ≤ 254)

/-- `std::isspace` in the "C" locale on a byte for which it is defined. -/
def isSpace (c : Byte) : Bool := c == 32 || (decide (9 ≤ c.toNat) && decide (c.toNat ≤ 13))

/-- `std::isdigit` on a byte for which it is defined. -/
def isDigit (c : Byte) : Bool := decide (48 ≤ c.toNat) && decide (c.toNat ≤ 57)

/-- Decimal representation of a number, as `operator<<` writes it. -/
def decimal (n : Nat) : Str :=
  if n < 10 then [UInt8.ofNat (48 + n)] else decimal (n / 10) ++ [UInt8.ofNat (48 + n % 10)]
termination_by n

/-- The last `n` elements of a list (all of it if there are fewer). -/
def lastN {α : Type _} (n : Nat) (l : List α) : List α := l.drop (l.length - n)

end Verif
