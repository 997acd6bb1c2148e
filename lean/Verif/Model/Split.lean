import Verif.Basic

/-!
# Model of `include/cli/detail/split.h`: the command line tokeniser

The class `Text` is a character-driven state machine. `splitResult.back()` on an empty vector is undefined
behaviour (guarded by `assert`s); it is a fault in the model.
-/

namespace Verif.Split

/-- split.h:196 `enum class State { space, word, sentence, escape };` -/
inductive State where
  | space | word | sentence | escape
  deriving DecidableEq, Repr

/-- split.h:197 `enum class SentenceType { quote, double_quote };` -/
inductive SentenceType where
  | quote | double_quote
  deriving DecidableEq, Repr

/-- split.h:198-202, data members of `class Text` (without the input). -/
structure Text where
  state : State
  prev_state : State
  sentence_type : SentenceType
  splitResult : List Str
  deriving DecidableEq, Repr

/-- split.h:59-65 `Reset()`. -/
def Text.reset : Text :=
  { state := .space, prev_state := .space, sentence_type := .double_quote, splitResult := [] }

/-- `splitResult.back() += s` (split.h:138, 152, 163, 171, 172); undefined on an empty vector
    (the code `assert`s `!splitResult.empty()`). -/
def appendBack (v : List Str) (s : Str) : Except Fault (List Str) :=
  match v.getLast? with
  | none => .error (.ub .emptyContainer)
  | some w => .ok (v.dropLast ++ [w ++ s])

/-- split.h:88, 117: `c == ' ' || c == '\t' || c == '\n'`. -/
def isBlank (c : Byte) : Bool := c == b%' ' || c == b%'\t' || c == b%'\n'

/-- split.h:92, 126, 144: `c == '"' || c == '\''`. -/
def isQuote (c : Byte) : Bool := c == b%'"' || c == b%'\''

/-- split.h:146, 179: `c == '"' ? SentenceType::double_quote : SentenceType::quote`. -/
def sentenceType (c : Byte) : SentenceType := if c == b%'"' then .double_quote else .quote

/-- split.h:176-181 `NewSentence`. -/
def Text.newSentence (t : Text) (c : Byte) : Text :=
  { t with state := .sentence, sentence_type := sentenceType c, splitResult := t.splitResult ++ [[]] }

/-- split.h:86-113 `EvalSpace`. -/
def Text.evalSpace (t : Text) (c : Byte) : Except Fault Text :=
  if isBlank c then .ok t
  else if isQuote c then .ok (t.newSentence c)
  else if c == b%'\\' then
    .ok { t with prev_state := .word, state := .escape, splitResult := t.splitResult ++ [[]] }
  else if c == b%'!' then
    .ok { t with splitResult := t.splitResult ++ [[c]] }
  else
    .ok { t with state := .word, splitResult := t.splitResult ++ [[c]] }

/-- split.h:115-140 `EvalWord`. -/
def Text.evalWord (t : Text) (c : Byte) : Except Fault Text :=
  if isBlank c then .ok { t with state := .space }
  else if c == b%'!' then
    .ok { t with splitResult := t.splitResult ++ [[c]], state := .space }
  else if isQuote c then .ok (t.newSentence c)
  else if c == b%'\\' then .ok { t with prev_state := t.state, state := .escape }
  else do
    let r ← appendBack t.splitResult [c]
    return { t with splitResult := r }

/-- split.h:142-165 `EvalSentence`. -/
def Text.evalSentence (t : Text) (c : Byte) : Except Fault Text :=
  if isQuote c then
    if sentenceType c = t.sentence_type then .ok { t with state := .space }
    else do
      let r ← appendBack t.splitResult [c]
      return { t with splitResult := r }
  else if c == b%'\\' then .ok { t with prev_state := t.state, state := .escape }
  else do
    let r ← appendBack t.splitResult [c]
    return { t with splitResult := r }

/-- split.h:167-174 `EvalEscape`. -/
def Text.evalEscape (t : Text) (c : Byte) : Except Fault Text := do
  let r ←
    if c != b%'"' && c != b%'\'' && c != b%'\\' then appendBack t.splitResult [b%'\\']
    else if t.splitResult.isEmpty then .error (.ub .emptyContainer) -- the `assert` of line 169
    else .ok t.splitResult
  let r ← appendBack r [c]
  return { t with splitResult := r, state := t.prev_state }

/-- split.h:67-84 `Eval`. -/
def Text.eval (t : Text) (c : Byte) : Except Fault Text :=
  match t.state with
  | .space => t.evalSpace c
  | .word => t.evalWord c
  | .sentence => t.evalSentence c
  | .escape => t.evalEscape c

/-- split.h:53-54: `for (char c: input) Eval(c);`. -/
def Text.run (t : Text) : Str → Except Fault Text
  | [] => .ok t
  | c :: cs => do
    let t' ← t.eval c
    t'.run cs

/-- split.h:183-194 `RemoveEmptyEntries`. -/
def removeEmptyEntries (v : List Str) : List Str := v.filter (fun s => !s.isEmpty)

/-- split.h:239-243 `split` and 50-57 `SplitInto`: the vector of arguments of a command line. -/
def split (input : Str) : Except Fault (List Str) := do
  let t ← Text.reset.run input
  return removeEmptyEntries t.splitResult

end Verif.Split
