import Verif.Model.Session

/-!
# Model of `Menu::Insert`: how the type of a function determines the command (`include/cli/cli.h`)

The types of the parameters of the function that is inserted are data here. What the compiler rejects is `none`. Types with
a user-defined `operator>>` are numbered and can be copied and constructed without arguments.
-/

namespace Verif.Signature
open FromString (ParamTy)

/-- Types of parameters, without references and `const`. -/
inductive Ty where
  | char | schar | uchar | short | ushort | int | uint | long | ulong | llong | ullong
  | float | double | ldouble | bool | string
  /-- `std::vector<std::string>` -/
  | strings
  /-- `std::nullptr_t` -/
  | null
  /-- a type with a user-defined `operator>>` -/
  | custom (k : Nat)
  deriving DecidableEq, Repr

/-- How a parameter is declared: `T` (or `const T`, which is the same in the type of a function), `const T&`, `T&`, `T&&`. -/
inductive Form where
  | value | constRef | ref | rvalue
  deriving DecidableEq, Repr

structure Par where
  ty : Ty
  form : Form
  deriving DecidableEq, Repr

/-- What the implementation chooses: has `long` 64 bits (or 32)? The other types have the same sizes everywhere the library is used. -/
structure Data where
  wideLong : Bool
  deriving DecidableEq, Repr

/-- fromstring.h:75-274: the `from_string<T>` that is taken. There is none for a vector: line 268 does not compile. -/
def Ty.param (d : Data) : Ty → Option ParamTy
  | .char => some .char
  | .schar => some (.signed .w8)
  | .uchar => some (.unsigned .w8)
  | .short => some (.signed .w16)
  | .ushort => some (.unsigned .w16)
  | .int => some (.signed .w32)
  | .uint => some (.unsigned .w32)
  | .long => some (.signed (if d.wideLong then .w64 else .w32))
  | .ulong => some (.unsigned (if d.wideLong then .w64 else .w32))
  | .llong => some (.signed .w64)
  | .ullong => some (.unsigned .w64)
  | .float => some (.float 0)
  | .double => some (.float 1)
  | .ldouble => some (.float 2)
  | .bool => some .bool
  | .string => some .string
  | .strings => none
  | .null => some .null
  | .custom k => some (.custom k)

/-- cli.h:54-71 `TypeDesc<T>::Name()`. -/
def Ty.tname : Ty → Str
  | .char => bs!"<char>"
  | .uchar => bs!"<unsigned char>"
  | .schar => bs!"<signed char>"
  | .short => bs!"<short>"
  | .ushort => bs!"<unsigned short>"
  | .int => bs!"<int>"
  | .uint => bs!"<unsigned int>"
  | .long => bs!"<long>"
  | .ulong => bs!"<unsigned long>"
  | .llong => bs!"<long long>"
  | .ullong => bs!"<unsigned long long>"
  | .float => bs!"<float>"
  | .double => bs!"<double>"
  | .ldouble => bs!"<long double>"
  | .bool => bs!"<bool>"
  | .string => bs!"<string>"
  | .strings => bs!"<list of strings>"
  | .null => []
  | .custom _ => []

/-- cli.h:714-716 and 784: a `T&` does not bind to the result of `from_string` (line 714), and a `T&&` not to the `pars` of line 784.
    Line 714 converts to the type without reference and `const`. -/
def Par.param (d : Data) (q : Par) : Option Param :=
  match q.form with
  | .value | .constRef => (q.ty.param d).map (fun t => ⟨t, q.ty.tname⟩)
  | .ref | .rvalue => none

/-- cli.h:707-718: the parameters one after the other. -/
def params (d : Data) : List Par → Option (List Param)
  | [] => some []
  | q :: qs => match q.param d, params d qs with
    | some x, some xs => some (x :: xs)
    | _, _ => none

/-- What is inserted: a pointer to a function; an object with one `operator() const`, such as a lambda; an object whose `operator()` is
    not `const`, such as a `mutable` lambda. The parameters are those after the stream. -/
inductive Fun where
  | pointer (ps : List Par)
  | object (ps : List Par)
  | changing (ps : List Par)
  deriving DecidableEq, Repr

/-- A call of `Menu::Insert`: `Insert(name, f, help, parDesc)` (cli.h:465-473) or, if `first`, `Insert(name, parDesc, f, help)`
    (cli.h:475-480). `help` is `none` if it is left out. -/
structure Call where
  name : Str
  f : Fun
  help : Option Str
  parDesc : List Str
  first : Bool
  deriving DecidableEq, Repr

/-- cli.h:465-480, 685-692, 984-1006: the overload that is taken. A pointer is only for the overload of line 465, where `help` has no
    default; the others need an `operator()`. Of the private ones, those for a vector of strings are more specialised than the one for
    any parameters. -/
def Call.kind (d : Data) (c : Call) : Option Kind :=
  match c.f with
  | .pointer ps => if c.first || c.help.isNone then none else (params d ps).map .variadic
  | .object [⟨.strings, .value⟩] => some .freeform
  | .object [⟨.strings, .constRef⟩] => some .freeform
  | .object ps => (params d ps).map .variadic
  | .changing _ => none

/-- cli.h:468, 475: the default of `help`. -/
def Call.desc (c : Call) : Str := c.help.getD []

/-- cli.h:985-1006: the command; the function is the `n`-th one inserted. -/
def Call.command (d : Data) (n : Nat) (c : Call) : Option Cmd :=
  (c.kind d).map (fun k => ⟨n + 1, c.name, k, n, c.desc, c.parDesc⟩)

/-- cli.h:482-488: the calls of `Insert` one after the other, on a menu that has the entries `acc`. -/
def build (d : Data) (acc : Forest) (n : Nat) : List Call → Option Forest
  | [] => some acc
  | c :: cs => match c.command d n with
    | some x => build d (acc.append (.cmd x .nil)) (n + 1) cs
    | none => none

end Verif.Signature
