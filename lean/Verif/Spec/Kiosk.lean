import Verif.Spec.Panel
import Verif.Spec.Screenplay
import Verif.Spec.Weave

/-!
# What can be seen on the screen of the examples with their own `io_context` (C134)

`Panel` says how their commands answer. Here are the history and the whole of what is written: the prompts, the characters as they are typed, and the answers. The history is described as for the program `complete` (`Spec/Showcase`).
-/

namespace Verif.Hosted
open Spec
open Showcase (Book Bang Readable enter)

/-- What the answers and the prompt depend on. -/
structure Stand where
  panel : Panel
  /-- escape sequences are written, as the output is a terminal or a coloured prompt has been written before -/
  escapes : Bool
  book : Book
  deriving DecidableEq, Repr

/-- At first there is no history; there is room for 200 lines. -/
def Stand.start (tty : Bool) : Stand := ⟨Panel.start, tty, Book.open 200 []⟩

/-- Recorded, and deleted again. -/
def skipped (b : Book) (line : Str) : Book := (b.record line).forget

/-- What a line other than `exit` does and writes. -/
inductive Stand.Answer : Stand → Str → Stand → Str → Prop
  | blank {s line} : Lex.Line line [] → Answer s line s []
  | does {s line toks k t} : Lex.Line line toks → s.panel.Does toks k t → toks ≠ [bs!"exit"] → Answer s line { s with panel := k, book := s.book.record line } t
  | wrong {s line toks} : Lex.Line line toks → toks ≠ [] → ¬ Recalls toks → (∀ k t, ¬ s.panel.Does toks k t) → Answer s line { s with book := s.book.record line } (bs!"wrong command: " ++ line ++ bs!"\n")
  | history {s line} : Lex.Line line [bs!"history"] → Answer s line { s with book := s.book.record line } (HistoryList.render (s.book.record line).listing)
  /-- the line with this number is executed, in place of this one -/
  | again {s line n c s' t} : Showcase.Recalls line n → (n, c) ∈ (skipped s.book line).listing → Answer { s with book := skipped s.book line } c s' t → Answer s line s' t
  | unknown {s line n} : Showcase.Recalls line n → (∀ c, (n, c) ∉ (skipped s.book line).listing) →
      Answer s line { s with book := skipped s.book line } (bs!"Exception caught in cli handler: Index not found in history handling command: " ++ line ++ bs!".\n")

/-- The line ends the session. -/
inductive Quits : Book → Str → Prop
  | exit {b line} : Lex.Line line [bs!"exit"] → Quits b line
  | again {b line n c} : Showcase.Recalls line n → (n, c) ∈ (skipped b line).listing → Quits (skipped b line) c → Quits b line

/-- What the line does is undefined: it refers to the history, or leads to a line that does, when nothing has ever been recorded, or nothing is (C26). -/
inductive Fails : Book → Str → Prop
  | again {b line n c} : Showcase.Recalls line n → (n, c) ∈ (skipped b line).listing → Fails (skipped b line) c → Fails b line
  | empty {b line} : Bang line → (b.record line).entries = [] ∨ ((skipped b line).first = 0 ∧ (skipped b line).entries = []) → Fails b line

/-- The line leads to one that is not `!` and a number (or to no line), through at most so many that are, and all of these can be read. -/
inductive Within (p : Platform) : Nat → Book → Str → Prop
  | plain {k b line} : Readable p line → ¬ Bang line → Within p k b line
  | again {k b line n} : Readable p line → Showcase.Recalls line n → (∀ c, (n, c) ∈ (skipped b line).listing → Within p k (skipped b line) c) → Within p (k + 1) b line

/-- What is written when the session ends. -/
def farewell : Str := bs!"Closing App...\nGoodbye and thanks for all the fish.\n"

/-- The prompt: in bold green, if colours are on; what comes after the name resets the colours. -/
def Stand.prompt (s : Stand) : Str := (if s.panel.on then bs!"\x1b[32m\x1b[1m" else []) ++ bs!"cli" ++ (if s.panel.on || s.escapes then bs!"\x1b[0m" else []) ++ bs!"> "

/-- From then on escape sequences are written. -/
def Stand.prompted (s : Stand) : Stand := { s with escapes := s.panel.on || s.escapes }

/-- How a character that is typed appears: in bright gray if colours are on; what comes after it resets the colours. -/
def Stand.echo (s : Stand) (c : Byte) : Str := (if s.panel.on then bs!"\x1b[97m" else []) ++ [c] ++ (if s.panel.on || s.escapes then bs!"\x1b[0m" else [])

def Stand.echoes (s : Stand) (l : Str) : Str := l.flatMap s.echo

/-- Lines and the answers to them: the line as it is typed, the end of the line, what is written, and the next prompt. -/
inductive Dialogue : Stand → List Str → Stand → Str → Prop
  | nil {s} : Dialogue s [] s []
  | line {s s' s'' l ls t o} : s.Answer l s' t → Dialogue s'.prompted ls s'' o → Dialogue s (l :: ls) s'' (s.echoes l ++ bs!"\r\n" ++ t ++ s'.prompt ++ o)

/-- What is written after the first prompt, when these characters have been typed. -/
inductive Scene (s : Stand) : Str → Str → Prop
  /-- some lines, and the beginning of another one -/
  | typing {ls s' o l} : Dialogue s ls s' o → (∀ l ∈ ls, Printable l) → Printable l → Scene s (enter ls ++ l) (o ++ s'.echoes l)
  /-- some lines, and one that ends the session -/
  | over {ls s' o l} : Dialogue s ls s' o → (∀ l ∈ ls, Printable l) → Printable l → Quits s'.book l → Scene s (enter ls ++ (l ++ bs!"\n")) (o ++ s'.echoes l ++ bs!"\r\n" ++ farewell)

/-- Lines to be typed, of which the last one ends the session and no other does: printable ones, for which the behaviour is defined, and which do not lead through more than so many lines that refer to the history. -/
structure Play (p : Platform) (depth : Nat) (s : Stand) (ls : List Str) (x : Str) : Prop where
  lines : ∀ l ∈ ls ++ [x], Printable l
  fine : ∀ a l b s' o, ls = a ++ l :: b → Dialogue s a s' o → ¬ Fails s'.book l ∧ ¬ Quits s'.book l ∧ Within p depth s'.book l
  last : ∀ s' o, Dialogue s ls s' o → Quits s'.book x ∧ Within p depth s'.book x

end Verif.Hosted
