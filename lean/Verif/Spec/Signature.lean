import Verif.Model.Signature
import Verif.Spec.Number
import Verif.Spec.Lex
import Verif.Spec.Space
import Verif.Spec.Help

/-!
# What the commands should take that functions are made into (C109)
-/

namespace Verif.Signature
open FromString (Value)

/-- The parameters of the function after the stream. -/
def Fun.pars : Fun → List Par
  | .pointer ps | .object ps | .changing ps => ps

/-- Unsigned integral types with their number of bits. -/
inductive Unsigned (d : Data) : Ty → Nat → Prop
  | uchar : Unsigned d .uchar 8
  | ushort : Unsigned d .ushort 16
  | uint : Unsigned d .uint 32
  | ulong64 : d.wideLong = true → Unsigned d .ulong 64
  | ulong32 : d.wideLong = false → Unsigned d .ulong 32
  | ullong : Unsigned d .ullong 64

/-- Signed integral types with their number of bits. -/
inductive Signed (d : Data) : Ty → Nat → Prop
  | schar : Signed d .schar 8
  | short : Signed d .short 16
  | int : Signed d .int 32
  | long64 : d.wideLong = true → Signed d .long 64
  | long32 : d.wideLong = false → Signed d .long 32
  | llong : Signed d .llong 64

/-- Floating point types with the function of the standard library that reads them (0, 1, 2: `stof`, `stod`, `stold`). -/
inductive Floating : Ty → Nat → Prop
  | float : Floating .float 0
  | double : Floating .double 1
  | ldouble : Floating .ldouble 2

/-- The argument `s` denotes the value `v` of the type. -/
inductive Reads (p : Platform) (d : Data) : Ty → Str → Value → Prop
  | char (c) : Reads p d .char [c] (.char c)
  | string (s) : Reads p d .string s (.str s)
  | null (s) : Reads p d .null s .null
  | word {s b} : (s, b) ∈ [(bs!"true", true), (bs!"false", false)] → Reads p d .bool s (.bool b)
  | bit {s i b} : Number.SpellsInt s i → (i, b) ∈ [((1 : Int), true), (0, false)] → Reads p d .bool s (.bool b)
  | unsigned {ty n s m} : Unsigned d ty n → Number.SpellsNat s m → m < 2 ^ n → Reads p d ty s (.int m)
  | signed {ty n s i} : Signed d ty n → Number.SpellsInt s i → -2 ^ (n - 1) ≤ i → i < 2 ^ (n - 1) → Reads p d ty s (.int i)
  | float {ty k s x} : Floating ty k → (∀ c ∈ s, Spec.blank c = false) → p.parseFloat k s = some (x, s.length) → Reads p d ty s (.float k x)
  | custom {k s x n} : p.extract k s = .ok (some (x, n)) → (∀ c ∈ s.drop n, Spec.blank c = true) → Reads p d (.custom k) s (.custom k x)

/-- One argument for each parameter. -/
inductive Each (p : Platform) (d : Data) : List Par → List Str → List Value → Prop
  | nil : Each p d [] [] []
  | cons {q qs s ss v vs} : Reads p d q.ty s v → Each p d qs ss vs → Each p d (q :: qs) (s :: ss) (v :: vs)

/-- The arguments fit the function, which gets these values. A function with a vector of strings gets all arguments, however many. -/
def Takes (p : Platform) (d : Data) (f : Fun) (args : List Str) (vals : List Value) : Prop :=
  if f.pars.map Par.ty = [.strings] then vals = args.map .str else Each p d f.pars args vals

/-- Reading the argument is defined and throws nothing of its own: no bytes above 127 where numbers are read and `char` is signed; no minus sign for
    a type of 32 or 64 bits where overflow is undefined; and the user-defined operator does not throw. -/
def Safe (p : Platform) (ty : Ty) (s : Str) : Prop :=
  match ty with
  | .char | .string | .strings | .null => True
  | .custom k => ∃ o, p.extract k s = .ok o
  | .float | .double | .ldouble | .uchar | .ushort | .uint | .ulong | .ullong | .schar | .short => ∀ c ∈ s, p.ctypeUB c = false
  | .int | .long | .llong | .bool => (∀ c ∈ s, p.ctypeUB c = false) ∧ (p.strictOverflow = false ∨ s.head? ≠ some b%'-')

/-- How the type is written. -/
def Ty.spelling : Ty → Option Str
  | .char => some bs!"char" | .schar => some bs!"signed char" | .uchar => some bs!"unsigned char"
  | .short => some bs!"short" | .ushort => some bs!"unsigned short"
  | .int => some bs!"int" | .uint => some bs!"unsigned int"
  | .long => some bs!"long" | .ulong => some bs!"unsigned long"
  | .llong => some bs!"long long" | .ullong => some bs!"unsigned long long"
  | .float => some bs!"float" | .double => some bs!"double" | .ldouble => some bs!"long double"
  | .bool => some bs!"bool" | .string => some bs!"string" | .strings => some bs!"list of strings"
  | .null | .custom _ => none

def angle (s : Str) : Str := bs!"<" ++ s ++ bs!">"

/-- What `help` shows of the parameters: the descriptions, if there are any, or the types. -/
def Call.shown (c : Call) : List Str :=
  match c.parDesc with
  | [] => c.f.pars.map (fun q => (q.ty.spelling.map angle).getD [])
  | ds => ds.map angle

/-- What `help` shows of the function. -/
def Call.item (c : Call) : Spec.HelpItem := ⟨c.name, c.shown, c.help.getD []⟩

end Verif.Signature
