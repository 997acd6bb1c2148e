import Verif.Basic

/-! # White space (independent specification) -/

namespace Verif.Spec

/-- Space, tab, new line, vertical tab, form feed and carriage return. -/
def blank (c : Byte) : Bool := [b%' ', b%'\t', b%'\n', 11, 12, b%'\r'].contains c

end Verif.Spec
