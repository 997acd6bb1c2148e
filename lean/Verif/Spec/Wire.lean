import Verif.Basic

/-!
# What a telnet client sends for what is typed
-/

namespace Verif.Spec

/-- Each character as it is; for Enter, CR and NUL or CR and LF. -/
inductive Sent : Str → Str → Prop
  | nil : Sent [] []
  | char {c b s} : c ≠ 10 → Sent b s → Sent (c :: b) (c :: s)
  | enter0 {b s} : Sent b s → Sent (10 :: b) (13 :: 0 :: s)
  | enter10 {b s} : Sent b s → Sent (10 :: b) (13 :: 10 :: s)

end Verif.Spec
