import Verif.Basic

/-!
# Model of `include/cli/detail/history.h`

`size_t` values are natural numbers; counters are assumed not to reach 2^64. The subtractions that may go below zero wrap
around explicitly (`wsub`).
-/

namespace Verif.History

/-- history.h:194 `enum class Mode { inserting, browsing };` -/
inductive Mode where
  | inserting | browsing
  deriving DecidableEq, Repr

/-- history.h:190-196, data members. -/
structure History where
  maxSize : Nat
  /-- `buffer[0]` is the newest element -/
  buffer : List Str
  current : Nat
  commands : Nat
  mode : Mode
  idOfOldest : Nat
  deriving DecidableEq, Repr

/-- history.h:49 constructor. -/
def init (size : Nat) : History :=
  { maxSize := size, buffer := [], current := 0, commands := 0, mode := .inserting, idOfOldest := 0 }

/-- `size_t` subtraction. -/
def wsub (a b : Nat) : Nat := if b ≤ a then a - b else 2 ^ 64 - (b - a)

/-- history.h:180-188 `Insert`. -/
def insert (h : History) (item : Str) : History :=
  let b := item :: h.buffer
  if b.length > h.maxSize then { h with buffer := b.dropLast, idOfOldest := h.idOfOldest + 1 }
  else { h with buffer := b }

/-- history.h:55-73 `NewCommand`. `buffer[0]` on an empty deque is undefined (the code asserts). -/
def newCommand (h : History) (item : Str) : Except Fault History :=
  let h := { h with commands := h.commands + 1, current := 0 }
  match h.mode with
  | .browsing =>
    match h.buffer with
    | [] => .error (.ub .emptyContainer)
    | _ :: rest =>
      if rest.head? = some item then                       -- `buffer.size() > 1 && buffer[1] == item`
        .ok { h with buffer := rest, mode := .inserting }
      else
        .ok { h with buffer := item :: rest, mode := .inserting }
  | .inserting =>
    if h.buffer.head? ≠ some item then                     -- `buffer.empty() || buffer[0] != item`
      .ok { insert h item with mode := .inserting }
    else
      .ok { h with mode := .inserting }

/-- `return buffer[current]` with the asserts of lines 96 and 107. -/
def getCurrent (h : History) : Except Fault Str :=
  match h.buffer[h.current]? with
  | none => .error (.ub .outOfRange)
  | some s => .ok s

/-- history.h:80-98 `Previous`: the line to show and the new state. -/
def previous (h : History) (line : Str) : Except Fault (Str × History) :=
  match h.mode with
  | .inserting => do
    let h := insert h line
    let h := { h with mode := .browsing, current := if h.buffer.length > 1 then 1 else 0 }
    let s ← getCurrent h
    return (s, h)
  | .browsing =>
    if h.current < h.buffer.length then do                 -- `buffer[current] = line`
      let h := { h with buffer := h.buffer.set h.current line }
      let h := if h.current ≠ h.buffer.length - 1 then { h with current := h.current + 1 } else h
      let s ← getCurrent h
      return (s, h)
    else .error (.ub .outOfRange)

/-- history.h:101-109 `Next`. -/
def next (h : History) : Except Fault (Str × History) :=
  if h.buffer = [] ∨ h.current = 0 then .ok ([], h)
  else do
    let h := { h with current := h.current - 1 }
    let s ← getCurrent h
    return (s, h)

/-- history.h:166-171 `IndexToId` (`none`: throws `out_of_range`). -/
def indexToId (h : History) (index : Nat) : Option Nat :=
  let last := wsub (h.idOfOldest + h.buffer.length) 1
  if index > last then none else some (wsub last index)

/-- history.h:173-178 `IdToIndex` (`none`: throws `out_of_range`). -/
def idToIndex (h : History) (id : Nat) : Option Nat :=
  let last := wsub (h.idOfOldest + h.buffer.length) 1
  if id < h.idOfOldest ∨ id > last then none else some (wsub last id)

/-- history.h:112-122 `Show`: the text written (`none`: an exception is thrown). The loop runs over `i` with `j = size-1-i`. -/
def «show» (h : History) : Option Str := do
  let size := h.buffer.length
  let lines ← (List.range size).mapM fun i => do
    let j := size - 1 - i
    let id ← indexToId h j
    let cmd ← h.buffer[j]?
    return decimal id ++ [b%'\t'] ++ cmd ++ [b%'\n']
  return [b%'\n'] ++ lines.flatten ++ [b%'\n']

/-- history.h:125-129 `LoadCommands`. -/
def loadCommands (h : History) (cmds : List Str) : History := cmds.foldl insert h

/-- history.h:132-147 `GetCommands`; `buffer.begin()+1` on an empty deque is undefined. -/
def getCommands (h : History) : Except Fault (List Str) :=
  match h.mode with
  | .browsing =>
    if h.buffer = [] then .error (.ub .outOfRange)
    else
      let n := min h.commands (h.buffer.length - 1)
      .ok ((h.buffer.drop 1).take n).reverse
  | .inserting =>
    let n := min h.commands h.buffer.length
    .ok (h.buffer.take n).reverse

/-- history.h:149-154 `At` (`none`: throws `out_of_range`). -/
def «at» (h : History) (id : Nat) : Except Fault (Option Str) :=
  match idToIndex h id with
  | none => .ok none
  | some index =>
    match h.buffer[index]? with
    | none => .error (.ub .outOfRange)
    | some s => .ok (some s)

/-- history.h:156-160 `ForgetLatest`. -/
def forgetLatest (h : History) : Except Fault History :=
  match h.buffer with
  | [] => .error (.ub .emptyContainer)
  | _ :: rest => .ok { h with buffer := rest }

end Verif.History
