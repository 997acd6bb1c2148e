import Verif.Model.WinKeyboard

/-!
# Specification: the codes of keys on Windows, as documented for `_getch`
-/

namespace Verif.Spec
open Terminal (Key)
open WinKeyboard (Rec)

/-- The key causes the record of a key press. Function keys, on Windows 0 and a code, have no meaning for the library. -/
inductive WinSends : Key → Rec → Prop
  | ascii {c} : c ∉ ([0, 3, 4, 8, 12, 13, 26] : Str) → WinSends (.ascii c) (.press c none)
  | up : WinSends .up (.press 224 (some 72))
  | down : WinSends .down (.press 224 (some 80))
  | left : WinSends .left (.press 224 (some 75))
  | right : WinSends .right (.press 224 (some 77))
  | home : WinSends .home (.press 224 (some 71))
  | «end» : WinSends .end (.press 224 (some 79))
  | canc : WinSends .canc (.press 224 (some 83))
  | extended {c} : c ∉ ([71, 72, 75, 77, 79, 80, 83] : Str) → WinSends .ignored (.press 224 (some c))
  | function {c} : WinSends .ignored (.press 0 (some c))
  | backspace : WinSends .backspace (.press 8 none)
  | clear : WinSends .clear (.press 12 none)
  | ret : WinSends .ret (.press 13 none)
  | ctrlC : WinSends .eof (.press 3 none)
  | ctrlD : WinSends .eof (.press 4 none)
  | ctrlZ : WinSends .eof (.press 26 none)

/-- The records that arise from pressing the keys, with records of other kinds anywhere. -/
inductive WinTyped : List Key → List Rec → Prop
  | nil : WinTyped [] []
  | key {k r ks rs} : WinSends k r → WinTyped ks rs → WinTyped (k :: ks) (r :: rs)
  | other {ks rs} : WinTyped ks rs → WinTyped ks (.other :: rs)

end Verif.Spec
