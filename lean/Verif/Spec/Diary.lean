import Verif.Spec.Ensemble

/-!
# What the program `complete` should remember from one run to the next (C133)
-/

namespace Verif.Showcase

variable {τ : Type}

/-- What is saved is added to the lines that are remembered, of which the latest are kept. -/
def remember (size : Nat) (lines saved : List Str) : List Str := lastN size (lines ++ saved)

/-- The program is run several times, with a terminal or not; what happens in each run is what should happen (C132) if the lines remembered are those that the run before has left. The first and the last list are what is remembered before and after. -/
inductive Days (E : Env) (size room : Nat) (greeting : Str) : List Str → List (Bool × List Cue) → List Str → Prop
  | nil {lines} : Days E size room greeting lines [] lines
  | cons {lines tty cues H rest lines'} : Performance E (remember size) id greeting (Stage.start id room tty lines) cues H → Days E size room greeting H.hall.storage rest lines' → Days E size room greeting lines ((tty, cues) :: rest) lines'

end Verif.Showcase
