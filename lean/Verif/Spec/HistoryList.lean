import Verif.Basic

/-!
# What a user sees of a history (independent specification)

A history is seen as its listing: pairs (identifier, command), oldest first.
-/

namespace Verif.HistoryList

/-- A listing: entries numbered consecutively from `first`, oldest first. -/
def number (first : Nat) : List Str → List (Nat × Str)
  | [] => []
  | c :: cs => (first, c) :: number (first + 1) cs

/-- How a listing is printed: an empty line, one line per entry, an empty line. -/
def render (l : List (Nat × Str)) : Str :=
  [b%'\n'] ++ l.flatMap (fun (id, c) => decimal id ++ [b%'\t'] ++ c ++ [b%'\n']) ++ [b%'\n']

/-- No two adjacent elements are equal. -/
def NoRepeat : List Str → Prop
  | a :: b :: l => a ≠ b ∧ NoRepeat (b :: l)
  | _ => True

/-- Entering a command: it becomes the newest entry unless it repeats the newest one; the oldest entries beyond `n` are dropped. -/
def enter (n : Nat) (entries : List Str) (item : Str) : List Str :=
  if entries.getLast? = some item then entries else lastN n (entries ++ [item])

end Verif.HistoryList
