import Verif.Spec.Kiosk
import Verif.Spec.Drafts

/-!
# Editing lines in the examples with their own `io_context` (C137)

As `Spec/Drafts` for the program `complete`: what is being typed is a line with a cursor; the arrows up and down go through the history, Tab completes the line, and Ctrl-L clears the screen. There is one menu, and what Tab offers depends on
which of the commands `color` and `nocolor` are enabled.
-/

namespace Verif.Hosted
open Spec
open Terminal (Key)
open Showcase (Book Edits Common leftwards wipe)

/-- The state of the program, the line being typed, and if the user looks through the history: the line that was being typed before, and how many steps they have gone back. -/
structure Slip where
  stand : Stand
  line : Zip
  back : Option (Str × Nat)
  deriving DecidableEq, Repr

def Slip.text (d : Slip) : Str := d.line.text

/-- The line is replaced. -/
def Slip.write (d : Slip) (line : Str) : Slip := { d with line := Zip.ofLine line }

/-- The user looks at the line `k` steps back, but not further back than there are entries. -/
def Slip.look (d : Slip) (b : Book) (draft : Str) (k : Nat) : Slip :=
  ⟨{ d.stand with book := b }, Zip.ofLine (b.page draft (min k b.entries.length)), some (draft, min k b.entries.length)⟩

/-- The arrow up. It keeps what has been changed of the line shown. -/
def Slip.up (d : Slip) : Slip :=
  match d.back with
  | none => d.look d.stand.book.spare d.text 1
  | some (_, 0) => d.look d.stand.book d.text 1
  | some (draft, k + 1) => d.look (d.stand.book.amend (k + 1) d.text) draft (k + 2)

/-- The arrow down. It does not keep what has been changed; and where there is nothing more recent, the line becomes empty. -/
def Slip.down (d : Slip) : Slip :=
  match d.back with
  | some (draft, k + 1) => d.look d.stand.book draft k
  | _ => d.write []

/-- The commands that there are: those that there are everywhere, and those of the menu that are enabled. -/
def Stand.names (s : Stand) : List Str :=
  [bs!"help", bs!"exit", bs!"history", bs!"!", bs!"hello"] ++ (if s.panel.color then [bs!"color"] else []) ++ (if s.panel.nocolor then [bs!"nocolor"] else [])

/-- What the line can be completed to. Blanks at the beginning do not matter. -/
def Stand.Completes (s : Stand) (line c : Str) : Prop := ∃ gap typed, line = gap ++ typed ∧ Gap gap typed ∧ c ∈ s.names ∧ typed <+: c

/-- All of that, in order. -/
def Stand.Offers (s : Stand) (line : Str) (cs : List Str) : Prop := cs.Pairwise StrBefore ∧ ∀ c, c ∈ cs ↔ s.Completes line c

/-- What keys lead to, and what the screen has received up to the last prompt if each line is written at once. -/
inductive Drafting : Slip → List Key → Slip → Str → Prop
  | nil {d} : Drafting d [] d []
  | edit {d k ks d' o} : Edits k → Drafting { d with line := d.line.key k } ks d' o → Drafting d (k :: ks) d' o
  | up {d ks d' o} : Drafting d.up ks d' o → Drafting d (.up :: ks) d' o
  | down {d ks d' o} : Drafting d.down ks d' o → Drafting d (.down :: ks) d' o
  | clear {d ks d' o} : Drafting (d.write d.text) ks d' o → Drafting d (.clear :: ks) d' (wipe ++ d.stand.prompt ++ o)
  /-- no completion: nothing happens -/
  | tabNone {d ks d' o} : d.stand.Offers d.text [] → Drafting d ks d' o → Drafting d (.ascii 9 :: ks) d' o
  /-- one completion -/
  | tabOne {d c ks d' o} : d.stand.Offers d.text [c] → Drafting (d.write (c ++ bs!" ")) ks d' o → Drafting d (.ascii 9 :: ks) d' o
  /-- several, with more in common than has been typed -/
  | tabMore {d a b cs pre ks d' o} : d.stand.Offers d.text (a :: b :: cs) → Common pre (a :: b :: cs) → d.text.length < pre.length → Drafting (d.write pre) ks d' o → Drafting d (.ascii 9 :: ks) d' o
  /-- several others: they are shown -/
  | tabList {d a b cs pre ks d' o} : d.stand.Offers d.text (a :: b :: cs) → Common pre (a :: b :: cs) → pre.length ≤ d.text.length → Drafting (d.write d.text) ks d' o →
      Drafting d (.ascii 9 :: ks) d' (d.stand.echoes d.text ++ bs!"\n" ++ (a :: b :: cs).flatMap (bs!"\t" ++ ·) ++ bs!"\n" ++ d.stand.prompt ++ o)
  /-- Enter. After a blank line the user is still where they were in the history. -/
  | enter {d ks s' t b d' o} : d.stand.Answer d.text s' t → (Lex.Line d.text [] ∧ b = d.back) ∨ (¬ Lex.Line d.text [] ∧ b = none) → Drafting ⟨s'.prompted, ⟨[], []⟩, b⟩ ks d' o →
      Drafting d (.ret :: ks) d' (d.stand.echoes d.text ++ bs!"\r\n" ++ t ++ s'.prompt ++ o)

/-- The last key has ended the session. -/
inductive Over (d : Slip) : List Key → Str → Prop
  /-- with a line -/
  | exit {ks d' o} : Drafting d ks d' o → Quits d'.stand.book d'.text → Over d (ks ++ [.ret]) (o ++ d'.stand.echoes d'.text ++ bs!"\r\n" ++ farewell)
  /-- with the end of the input (Ctrl-D) -/
  | eof {ks d' o} : Drafting d ks d' o → Over d (ks ++ [.eof]) (o ++ d'.stand.echoes d'.text ++ leftwards d'.line.after.length ++ farewell)

/-- What the screen has received after the first prompt, if each line is written at once. -/
inductive Take (d : Slip) : List Key → Str → Prop
  /-- a line is being typed -/
  | typing {ks d' o} : Drafting d ks d' o → Take d ks (o ++ d'.stand.echoes d'.text ++ leftwards d'.line.after.length)
  | over {ks o} : Over d ks o → Take d ks o

end Verif.Hosted
