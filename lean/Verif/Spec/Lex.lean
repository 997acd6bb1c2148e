import Verif.Basic

/-!
# Lexical grammar of command lines (independent specification)

README.md:190-211 ("Parameter parsing") and the comments of split.h:205-237, written as a grammar. It mentions
nothing of the state machine of the code.

* blank: space, tab or newline;
* quote: `"` or `'`;
* an escape is a backslash and the following byte; it denotes that byte alone if it is a quote or a backslash, and
  both bytes otherwise.
-/

namespace Verif.Lex

def blank (c : Byte) : Prop := c = b%' ' ∨ c = b%'\t' ∨ c = b%'\n'
def quote (c : Byte) : Prop := c = b%'"' ∨ c = b%'\''

/-- What a backslash followed by `c` stands for. -/
def escaped (c : Byte) : Str :=
  if c = b%'"' ∨ c = b%'\'' ∨ c = b%'\\' then [c] else [b%'\\', c]

/-- A byte that stands for itself: inside quotes `q` everything but `q` and backslash; outside quotes everything but
    blanks, quotes, `!` and backslash. -/
def plain : Option Byte → Byte → Prop
  | some q, c => c ≠ q ∧ c ≠ b%'\\'
  | none, c => ¬ blank c ∧ ¬ quote c ∧ c ≠ b%'!' ∧ c ≠ b%'\\'

/-- `Body q src txt`: the source text `src`, found outside quotes (`q = none`) or between quotes `q`, denotes `txt`. -/
inductive Body (q : Option Byte) : Str → Str → Prop
  | nil : Body q [] []
  | char {c src txt} : plain q c → Body q src txt → Body q (c :: src) (c :: txt)
  | esc {c src txt} : Body q src txt → Body q (b%'\\' :: c :: src) (escaped c ++ txt)

/-- Empty arguments are dropped. -/
def arg (txt : Str) : List Str := if txt = [] then [] else [txt]

/-- Where a word without quotes may end: before a blank, a quote or a `!`, or at the end of the line. -/
def wordEnd : Str → Prop
  | [] => True
  | c :: _ => blank c ∨ quote c ∨ c = b%'!'

/-- `Line src args`: the command line `src` consists of the arguments `args`. -/
inductive Line : Str → List Str → Prop
  | nil : Line [] []
  | blank {c src args} : blank c → Line src args → Line (c :: src) args
  | bang {src args} : Line src args → Line (b%'!' :: src) ([b%'!'] :: args)
  /-- an unquoted word -/
  | word {body txt src args} : Body none body txt → body ≠ [] → wordEnd src → Line src args →
      Line (body ++ src) (arg txt ++ args)
  /-- an unquoted word cut by the end of the line just after a backslash (the backslash is dropped) -/
  | wordCut {body txt} : Body none body txt → Line (body ++ [b%'\\']) (arg txt)
  /-- a quoted argument -/
  | quoted {q body txt src args} : quote q → Body (some q) body txt → Line src args →
      Line (q :: body ++ q :: src) (arg txt ++ args)
  /-- a quoted argument whose closing quote is missing extends to the end of the line -/
  | unclosed {q body txt} : quote q → Body (some q) body txt → Line (q :: body) (arg txt)
  /-- the same, cut just after a backslash -/
  | unclosedCut {q body txt} : quote q → Body (some q) body txt → Line (q :: body ++ [b%'\\']) (arg txt)

/-- Writing an argument between quotes: the quote and the backslash get a backslash in front. -/
def quoteArg (q : Byte) (a : Str) : Str :=
  [q] ++ a.flatMap (fun c => if c = q ∨ c = b%'\\' then [b%'\\', c] else [c]) ++ [q]

end Verif.Lex
