import Verif.Spec.Workbench
import Verif.Spec.Drafts

/-!
# Editing lines in the plugin manager (C136)

As `Spec/Drafts` for the program `complete`: what is being typed is a line with a cursor; the arrows up and down go through the history, Tab completes the line, and Ctrl-L clears the screen. Here the menus change, as plugins are loaded and unloaded,
and what Tab offers changes with them.
-/

namespace Verif.Workbench
open Spec
open Terminal (Key)
open Showcase (Book Edits Common leftwards wipe)

/-- The state of the program, the line being typed, and if the user looks through the history: the line that was being typed before, and how many steps they have gone back. -/
structure Sheet where
  desk : Desk
  line : Zip
  back : Option (Str × Nat)
  deriving DecidableEq, Repr

def Sheet.text (d : Sheet) : Str := d.line.text

/-- The line is replaced. -/
def Sheet.write (d : Sheet) (line : Str) : Sheet := { d with line := Zip.ofLine line }

/-- The user looks at the line `k` steps back, but not further back than there are entries. -/
def Sheet.look (d : Sheet) (b : Book) (draft : Str) (k : Nat) : Sheet :=
  ⟨{ d.desk with book := b }, Zip.ofLine (b.page draft (min k b.entries.length)), some (draft, min k b.entries.length)⟩

/-- The arrow up. It keeps what has been changed of the line shown. -/
def Sheet.up (d : Sheet) : Sheet :=
  match d.back with
  | none => d.look d.desk.book.spare d.text 1
  | some (_, 0) => d.look d.desk.book d.text 1
  | some (draft, k + 1) => d.look (d.desk.book.amend (k + 1) d.text) draft (k + 2)

/-- The arrow down. It does not keep what has been changed; and where there is nothing more recent, the line becomes empty. -/
def Sheet.down (d : Sheet) : Sheet :=
  match d.back with
  | some (draft, k + 1) => d.look d.desk.book draft k
  | _ => d.write []

/-- What has been typed is read as names of menus, each of them next to the one before, and the beginning of another name. The menus are those of the plugins loaded. -/
inductive Reads (s : Desk) : Place → Str → List Str → Place → Str → Prop
  | here {p r} : Reads s p r [] p r
  | down {a b gap rest ws q r} : Above s a b → Gap gap rest → Reads s b rest ws q r → Reads s a (b.name ++ gap ++ rest) (b.name :: ws) q r
  | up {a b t gap rest ws q r} : Above s a b → t = a.name ∨ t = bs!".." → Gap gap rest → Reads s a rest ws q r → Reads s b (t ++ gap ++ rest) (t :: ws) q r

/-- The commands that can be executed. -/
def Desk.names (s : Desk) : Place → List Str
  | .root => [bs!"list", bs!"loaded", bs!"load", bs!"unload"] ++ (if s.choice = some true then [] else [bs!"color"]) ++ (if s.choice = some false then [] else [bs!"nocolor"])
  | .plug .arithmetic => [bs!"add", bs!"sub"]
  | .plug .strings => [bs!"reverse", bs!"upper", bs!"sort"]

/-- The name of a command in the menu, or the name of a menu next to it, of which something is still to be typed. -/
def Desk.Begins (s : Desk) (p : Place) (r e : Str) : Prop := (e ∈ s.names p ∧ r <+: e) ∨ ∃ q, (Above s p q ∨ Above s q p) ∧ e = q.name ∧ r <+: e ∧ r ≠ e

/-- What the line can be completed to: a command that there is everywhere, or what it reads as. Blanks at the beginning do not matter. -/
def Desk.Completes (s : Desk) (line c : Str) : Prop := ∃ gap typed, line = gap ++ typed ∧ Gap gap typed ∧
  ((c ∈ [bs!"help", bs!"exit", bs!"history", bs!"!"] ∧ typed <+: c) ∨ ∃ ws q r e, Reads s s.place typed ws q r ∧ s.Begins q r e ∧ c = spell ws e)

/-- All of that, in order; a plugin that is loaded several times is offered once. -/
def Desk.Offers (s : Desk) (line : Str) (cs : List Str) : Prop := cs.Pairwise StrBefore ∧ ∀ c, c ∈ cs ↔ s.Completes line c

/-- What keys lead to, and what the screen has received up to the last prompt if each line is written at once. -/
inductive Drafting (f : Bool) : Sheet → List Key → Sheet → Str → Prop
  | nil {d} : Drafting f d [] d []
  | edit {d k ks d' o} : Edits k → Drafting f { d with line := d.line.key k } ks d' o → Drafting f d (k :: ks) d' o
  | up {d ks d' o} : Drafting f d.up ks d' o → Drafting f d (.up :: ks) d' o
  | down {d ks d' o} : Drafting f d.down ks d' o → Drafting f d (.down :: ks) d' o
  | clear {d ks d' o} : Drafting f (d.write d.text) ks d' o → Drafting f d (.clear :: ks) d' (wipe ++ d.desk.prompt ++ o)
  /-- no completion: nothing happens -/
  | tabNone {d ks d' o} : d.desk.Offers d.text [] → Drafting f d ks d' o → Drafting f d (.ascii 9 :: ks) d' o
  /-- one completion -/
  | tabOne {d c ks d' o} : d.desk.Offers d.text [c] → Drafting f (d.write (c ++ bs!" ")) ks d' o → Drafting f d (.ascii 9 :: ks) d' o
  /-- several, with more in common than has been typed -/
  | tabMore {d a b cs pre ks d' o} : d.desk.Offers d.text (a :: b :: cs) → Common pre (a :: b :: cs) → d.text.length < pre.length → Drafting f (d.write pre) ks d' o → Drafting f d (.ascii 9 :: ks) d' o
  /-- several others: they are shown -/
  | tabList {d a b cs pre ks d' o} : d.desk.Offers d.text (a :: b :: cs) → Common pre (a :: b :: cs) → pre.length ≤ d.text.length → Drafting f (d.write d.text) ks d' o →
      Drafting f d (.ascii 9 :: ks) d' (d.desk.echoes d.text ++ bs!"\n" ++ (a :: b :: cs).flatMap (bs!"\t" ++ ·) ++ bs!"\n" ++ d.desk.prompt ++ o)
  /-- Enter. After a blank line the user is still where they were in the history. -/
  | enter {d ks s' t b d' o} : Answer f d.desk d.text s' t → (Lex.Line d.text [] ∧ b = d.back) ∨ (¬ Lex.Line d.text [] ∧ b = none) → Drafting f ⟨s'.prompted, ⟨[], []⟩, b⟩ ks d' o →
      Drafting f d (.ret :: ks) d' (d.desk.echoes d.text ++ bs!"\r\n" ++ t ++ s'.prompt ++ o)

/-- The last key has ended the session. -/
inductive Over (f : Bool) (d : Sheet) : List Key → Str → Prop
  /-- with a line -/
  | exit {ks d' o} : Drafting f d ks d' o → Quits d'.desk d'.text → Over f d (ks ++ [.ret]) (o ++ d'.desk.echoes d'.text ++ bs!"\r\n" ++ farewell)
  /-- with the end of the input (Ctrl-D) -/
  | eof {ks d' o} : Drafting f d ks d' o → Over f d (ks ++ [.eof]) (o ++ d'.desk.echoes d'.text ++ leftwards d'.line.after.length ++ farewell)

/-- What the screen has received after the first prompt, if each line is written at once. -/
inductive Take (f : Bool) (d : Sheet) : List Key → Str → Prop
  /-- a line is being typed -/
  | typing {ks d' o} : Drafting f d ks d' o → Take f d ks (o ++ d'.desk.echoes d'.text ++ leftwards d'.line.after.length)
  | over {ks o} : Over f d ks o → Take f d ks o

end Verif.Workbench
