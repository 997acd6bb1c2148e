import Verif.Model.Terminal
import Verif.Model.Session

/-!
# Specification: two ways to enter the same lines (C123)
-/

namespace Verif.Spec
open Terminal (Key)

/-- The keys with which lines are typed. -/
def keyedIn (ls : List Str) : List Key := ls.flatMap (fun l => l.map Key.ascii ++ [.ret])

/-- A line that has been typed, as a terminal shows it: each of its characters, perhaps between escape sequences, and the end of the line. -/
def Echo (shown line : Str) : Prop :=
  ∃ colour escapes : Bool, (colour = true → escapes = true) ∧ shown = line.flatMap (fun c => (if colour then 27 :: bs!"[97m" else []) ++ [c] ++ (if escapes then 27 :: bs!"[0m" else [])) ++ bs!"\r\n"

/-- The same for several lines. -/
inductive Echoes : List Str → List Str → Prop
  | nil : Echoes [] []
  | cons {e l es ls} : Echo e l → Echoes es ls → Echoes (e :: es) (l :: ls)

/-- `a` is `b` with the pieces `es`, in this order, put in somewhere. -/
inductive Without : List Str → Str → Str → Prop
  | same (s) : Without [] s s
  | more {es a b} (s) : Without es a b → Without es (a ++ s) (b ++ s)
  | piece {es a b} (e) : Without es a b → Without (es ++ [e]) (a ++ e) b

/-- What is noted of a session, but for the commands saved. -/
def unsaved (log : List Event) : List Event := log.filter (fun e => match e with | .saved _ => false | _ => true)

/-- A line that is neither the command `history` nor the command `!`. -/
def NotAboutHistory (words : List Str) : Prop := words ≠ [bs!"history"] ∧ ∀ arg, words ≠ [bs!"!", arg]

end Verif.Spec
