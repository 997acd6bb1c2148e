import Verif.Spec.Screenplay
import Verif.Spec.Editor
import Verif.Spec.Complete

/-!
# Editing lines in the program `complete`

What is being typed is a line with a cursor. The arrows up and down go through the history, Tab completes the line, and Ctrl-L clears the screen. The specification says which line is entered, and what the screen would look like if the line had been
typed at once, without a mistake.
-/

namespace Verif.Showcase
open Spec
open Terminal (Key)

/-- The user's place, the line being typed, and if they look through the history: the line that was being typed before, and how many steps they have gone back. -/
structure Desk where
  seat : Seat
  line : Zip
  back : Option (Str × Nat)
  deriving DecidableEq, Repr

def Desk.text (d : Desk) : Str := d.line.text

/-- The oldest entry is deleted if there is no room for another one. -/
def Book.spare (b : Book) : Book := if b.entries.length < b.room then b else { b with first := b.first + 1, entries := b.entries.drop 1 }

/-- The entry that is `k` steps back (the latest one is one step back) is changed. -/
def Book.amend (b : Book) (k : Nat) (line : Str) : Book := { b with entries := (b.entries.reverse.set (k - 1) line).reverse }

/-- The line shown `k` steps back. -/
def Book.page (b : Book) (draft : Str) : Nat → Str
  | 0 => draft
  | k + 1 => b.entries.reverse.getD k []

/-- The line is replaced. -/
def Desk.write (d : Desk) (line : Str) : Desk := { d with line := Zip.ofLine line }

/-- The user looks at the line `k` steps back, but not further back than there are entries. -/
def Desk.look (d : Desk) (b : Book) (draft : Str) (k : Nat) : Desk :=
  ⟨{ d.seat with book := b }, Zip.ofLine (b.page draft (min k b.entries.length)), some (draft, min k b.entries.length)⟩

/-- The arrow up. It keeps what has been changed of the line shown. -/
def Desk.up (d : Desk) : Desk :=
  match d.back with
  | none => d.look d.seat.book.spare d.text 1
  | some (_, 0) => d.look d.seat.book d.text 1
  | some (draft, k + 1) => d.look (d.seat.book.amend (k + 1) d.text) draft (k + 2)

/-- The arrow down. It does not keep what has been changed; and where there is nothing more recent, the line becomes empty. -/
def Desk.down (d : Desk) : Desk :=
  match d.back with
  | some (draft, k + 1) => d.look d.seat.book draft k
  | _ => d.write []

/-- Keys that only edit the line. -/
inductive Edits : Key → Prop
  | ascii {c} : printable c = true → Edits (.ascii c)
  | left : Edits .left
  | right : Edits .right
  | home : Edits .home
  | end : Edits .end
  | backspace : Edits .backspace
  | canc : Edits .canc
  | ignored : Edits .ignored

/-- What has been typed is read as names of menus, each of them next to the one before, and the beginning of another name. -/
inductive Reads : Place → Str → List Str → Place → Str → Prop
  | here {p r} : Reads p r [] p r
  | down {a b gap rest ws q r} : Above a b → Gap gap rest → Reads b rest ws q r → Reads a (b.name ++ gap ++ rest) (b.name :: ws) q r
  | up {a b t gap rest ws q r} : Above a b → t = a.name ∨ t = bs!".." → Gap gap rest → Reads a rest ws q r → Reads b (t ++ gap ++ rest) (t :: ws) q r

/-- The commands that can be executed. -/
def Seat.names (s : Seat) : Place → List Str
  | .root => [bs!"free_function", bs!"hello", bs!"hello_everysession", bs!"answer", bs!"file", bs!"echo", bs!"error", bs!"reverse", bs!"add", bs!"sort", bs!"bar", bs!"complex"] ++
    (if s.gone then [] else if s.colour then [bs!"nocolor"] else [bs!"color"]) ++ [bs!"removecmds"]
  | .sub => [bs!"hello", bs!"demo"]
  | .subsub => [bs!"hello"]

/-- The name of a command in the menu, or the name of a menu next to it, of which something is still to be typed. -/
def Seat.Begins (s : Seat) (p : Place) (r e : Str) : Prop := (e ∈ s.names p ∧ r <+: e) ∨ ∃ q, (Above p q ∨ Above q p) ∧ e = q.name ∧ r <+: e ∧ r ≠ e

/-- What the line can be completed to: a command that there is everywhere, or what it reads as. Blanks at the beginning do not matter. -/
def Seat.Completes (s : Seat) (line c : Str) : Prop := ∃ gap typed, line = gap ++ typed ∧ Gap gap typed ∧
  ((c ∈ [bs!"help", bs!"exit", bs!"history", bs!"!"] ∧ typed <+: c) ∨ ∃ ws q r e, Reads s.place typed ws q r ∧ s.Begins q r e ∧ c = spell ws e)

/-- All of that, in order. -/
def Seat.Offers (s : Seat) (line : Str) (cs : List Str) : Prop := cs.Pairwise StrBefore ∧ ∀ c, c ∈ cs ↔ s.Completes line c

/-- All the words begin so, and no more of them is the same. -/
def Common (pre : Str) (cs : List Str) : Prop := (∀ c ∈ cs, pre <+: c) ∧ ∀ q, (∀ c ∈ cs, q <+: c) → q <+: pre

/-- The user goes left by so many characters. -/
def leftwards (n : Nat) : Str := List.replicate n 8

/-- Clears the screen. -/
def wipe : Str := bs!"\x1b[H\x1b[J"

/-- What keys lead to, and what the screen has received up to the last prompt if each line is written at once. -/
inductive Drafting (E : Env) : Desk → List Key → Desk → Str → Prop
  | nil {d} : Drafting E d [] d []
  | edit {d k ks d' o} : Edits k → Drafting E { d with line := d.line.key k } ks d' o → Drafting E d (k :: ks) d' o
  | up {d ks d' o} : Drafting E d.up ks d' o → Drafting E d (.up :: ks) d' o
  | down {d ks d' o} : Drafting E d.down ks d' o → Drafting E d (.down :: ks) d' o
  | clear {d ks d' o} : Drafting E (d.write d.text) ks d' o → Drafting E d (.clear :: ks) d' (wipe ++ d.seat.prompt ++ o)
  /-- no completion: nothing happens -/
  | tabNone {d ks d' o} : d.seat.Offers d.text [] → Drafting E d ks d' o → Drafting E d (.ascii 9 :: ks) d' o
  /-- one completion -/
  | tabOne {d c ks d' o} : d.seat.Offers d.text [c] → Drafting E (d.write (c ++ bs!" ")) ks d' o → Drafting E d (.ascii 9 :: ks) d' o
  /-- several, with more in common than has been typed -/
  | tabMore {d a b cs pre ks d' o} : d.seat.Offers d.text (a :: b :: cs) → Common pre (a :: b :: cs) → d.text.length < pre.length → Drafting E (d.write pre) ks d' o → Drafting E d (.ascii 9 :: ks) d' o
  /-- several others: they are shown -/
  | tabList {d a b cs pre ks d' o} : d.seat.Offers d.text (a :: b :: cs) → Common pre (a :: b :: cs) → pre.length ≤ d.text.length → Drafting E (d.write d.text) ks d' o →
      Drafting E d (.ascii 9 :: ks) d' (d.seat.echoes d.text ++ bs!"\n" ++ (a :: b :: cs).flatMap (bs!"\t" ++ ·) ++ bs!"\n" ++ d.seat.prompt ++ o)
  /-- Enter. After a blank line the user is still where they were in the history. -/
  | enter {d ks s' t b d' o} : Answer E d.seat d.text s' t → (Lex.Line d.text [] ∧ b = d.back) ∨ (¬ Lex.Line d.text [] ∧ b = none) → Drafting E ⟨s'.prompted, ⟨[], []⟩, b⟩ ks d' o →
      Drafting E d (.ret :: ks) d' (d.seat.echoes d.text ++ bs!"\r\n" ++ t ++ s'.prompt ++ o)

/-- The last key has ended the session. -/
inductive Over (E : Env) (telnet : Bool) (d : Desk) : List Key → Str → Prop
  /-- with a line -/
  | exit {ks d' o} : Drafting E d ks d' o → Quits d'.seat d'.text → Over E telnet d (ks ++ [.ret]) (o ++ d'.seat.echoes d'.text ++ bs!"\r\n" ++ farewell telnet)
  /-- with the end of the input (Ctrl-D) -/
  | eof {ks d' o} : Drafting E d ks d' o → Over E telnet d (ks ++ [.eof]) (o ++ d'.seat.echoes d'.text ++ leftwards d'.line.after.length ++ farewell telnet)

/-- What the screen has received after the first prompt, if each line is written at once. -/
inductive Take (E : Env) (telnet : Bool) (d : Desk) : List Key → Str → Prop
  /-- a line is being typed -/
  | typing {ks d' o} : Drafting E d ks d' o → Take E telnet d ks (o ++ d'.seat.echoes d'.text ++ leftwards d'.line.after.length)
  | over {ks o} : Over E telnet d ks o → Take E telnet d ks o

end Verif.Showcase
