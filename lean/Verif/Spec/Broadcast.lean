import Verif.Model.OutStream

/-!
# Specification of a broadcast

Only the operations are those of the model (`OutStream.Op`).
-/

namespace Verif.Spec
open OutStream

/-- What stream `k` gets from now on: private output, and all that is written to `Cli::cout()` while a session on it is alive. -/
def hears (k : Nat) : List (Nat × Nat) → List Op → Str
  | _, [] => []
  | live, .create s j :: ops => hears k ((s, j) :: live) ops
  | live, .destroy s :: ops => hears k (live.filter (fun p => p.1 ≠ s)) ops
  | live, .write t :: ops => (if k ∈ live.map (·.2) then t else []) ++ hears k live ops
  | live, .putc c :: ops => (if k ∈ live.map (·.2) then [c] else []) ++ hears k live ops
  | live, .own j t :: ops => (if j = k then t else []) ++ hears k live ops
  | live, .tune _ _ _ :: ops => hears k live ops

/-- Sessions have identities of their own, and streams of their own. -/
def Apart : List (Nat × Nat) → List Op → Prop
  | _, [] => True
  | live, .create s j :: ops => s ∉ live.map (·.1) ∧ j ∉ live.map (·.2) ∧ Apart ((s, j) :: live) ops
  | live, .destroy s :: ops => Apart (live.filter (fun p => p.1 ≠ s)) ops
  | live, _ :: ops => Apart live ops

end Verif.Spec
