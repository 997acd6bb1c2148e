import Verif.Basic

/-!
# Model of `detail::CommonPrefix` (`include/cli/detail/commonprefix.h`)
-/

namespace Verif.Completion

/-- `s[i]` on a `std::string`: defined up to and including `i = size()`, where it is the terminating zero. -/
def charAt (s : Str) (i : Nat) : Except Fault Byte :=
  if h : i < s.length then .ok s[i]
  else if i = s.length then .ok 0
  else .error (.ub .outOfRange)

/-- commonprefix.h:49-53: `std::min_element` by size (the first of the shortest strings). -/
def minElement (best : Str) : List Str → Str
  | [] => best
  | s :: rest => if s.length < best.length then minElement s rest else minElement best rest

/-- commonprefix.h:59-60: do all strings have `c` at position `i`? (stops at the first one that has not) -/
def allHave (c : Byte) (i : Nat) : List Str → Except Fault Bool
  | [] => .ok true
  | x :: rest => do
    if (← charAt x i) != c then .ok false else allHave c i rest

/-- commonprefix.h:55-64: the loop over the characters of the shortest string. -/
def prefixLoop (v : List Str) : (smin : Str) → (i : Nat) → (pre : Str) → Except Fault Str
  | [], _, pre => .ok pre
  | c :: rest, i, pre => do
    if (← allHave c i v) then prefixLoop v rest (i + 1) (pre ++ [c]) else .ok pre

/-- commonprefix.h:43-65. -/
def commonPrefix : List Str → Except Fault Str
  | [] => .error (.ub .assertion)
  | s :: rest => prefixLoop (s :: rest) (minElement s rest) 0 []

end Verif.Completion
