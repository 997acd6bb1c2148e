import Verif.Spec.Company
import Verif.Spec.Drafts
import Verif.Spec.Telnet

/-!
# What the program `complete` should do when the keys of all users are interleaved (C132)
-/

namespace Verif.Showcase

open Spec (Zip)
open Terminal (Key)

/-- The line being typed in a session, and if its user looks through the history: the line that was being typed before, and how many steps they have gone back. -/
structure Draft where
  line : Zip
  back : Option (Str × Nat)
  deriving DecidableEq, Repr

def Draft.text (d : Draft) : Str := d.line.text

/-- Nothing has been typed yet. -/
def Draft.none : Draft := ⟨⟨[], []⟩, .none⟩

/-- All sessions, what they share, and what is being typed in each of them. -/
structure Stage (τ : Type) where
  hall : Hall τ
  typing : Nat → Draft

variable {τ : Type}

/-- What is being typed in a session is now this. -/
def Stage.write (H : Stage τ) (i : Nat) (d : Draft) : Nat → Draft := fun j => if j = i then d else H.typing j

/-- What the keys of a session depend on. -/
def Stage.desk (H : Stage τ) (i : Nat) (g : Guest) : Desk := ⟨H.hall.seat g, (H.typing i).line, (H.typing i).back⟩

/-! ### Keys -/

/-- Text in the colour of what is typed. -/
def Seat.ink (s : Seat) (t : Str) : Str := (if s.colour then bs!"\x1b[97m" else []) ++ t ++ (if s.colour || s.escapes then bs!"\x1b[0m" else [])

/-- The line on the screen is replaced by another one, and what is left of it is covered with blanks. -/
def Seat.instead (s : Seat) (z : Zip) (l : Str) : Str :=
  s.ink (leftwards z.before.length ++ l) ++ List.replicate (z.text.length - l.length) 32 ++ leftwards (z.text.length - l.length)

/-- A key other than Enter and Ctrl-D: what it changes, and what it writes. -/
inductive Pressed : Desk → Key → Desk → Str → Prop
  /-- the rest of the line is written again behind the character -/
  | char {s z b c} : c ≠ 9 → Pressed ⟨s, z, b⟩ (.ascii c) ⟨s.prompted, ⟨c :: z.before, z.after⟩, b⟩ (s.ink (c :: z.after) ++ leftwards z.after.length)
  | backspace {s x p a b} : Pressed ⟨s, ⟨x :: p, a⟩, b⟩ .backspace ⟨s, ⟨p, a⟩, b⟩ (leftwards 1 ++ a ++ bs!" " ++ leftwards (a.length + 1))
  | canc {s p x a b} : Pressed ⟨s, ⟨p, x :: a⟩, b⟩ .canc ⟨s, ⟨p, a⟩, b⟩ (a ++ bs!" " ++ leftwards (a.length + 1))
  | left {s x p a b} : Pressed ⟨s, ⟨x :: p, a⟩, b⟩ .left ⟨s, ⟨p, x :: a⟩, b⟩ (leftwards 1)
  | right {s p x a b} : Pressed ⟨s, ⟨p, x :: a⟩, b⟩ .right ⟨s.prompted, ⟨x :: p, a⟩, b⟩ (s.ink [x])
  /-- at the beginning of the line these do nothing -/
  | first {s a b k} : k = .backspace ∨ k = .left → Pressed ⟨s, ⟨[], a⟩, b⟩ k ⟨s, ⟨[], a⟩, b⟩ []
  /-- at the end of the line these do nothing -/
  | last {s p b k} : k = .canc ∨ k = .right → Pressed ⟨s, ⟨p, []⟩, b⟩ k ⟨s, ⟨p, []⟩, b⟩ []
  | home {s z b} : Pressed ⟨s, z, b⟩ .home ⟨s, ⟨[], z.text⟩, b⟩ (leftwards z.before.length)
  | end {s z b} : Pressed ⟨s, z, b⟩ .end ⟨s.prompted, Zip.ofLine z.text, b⟩ (s.ink z.after)
  | ignored {d} : Pressed d .ignored d []
  /-- another line of the history -/
  | up {d : Desk} : Pressed d .up { d.up with seat := d.up.seat.prompted } (d.seat.instead d.line d.up.text)
  | down {d : Desk} : Pressed d .down { d.down with seat := d.down.seat.prompted } (d.seat.instead d.line d.down.text)
  /-- the screen is cleared, then there are the prompt and the line -/
  | clear {d : Desk} : Pressed d .clear { d.write d.text with seat := d.seat.prompted } (wipe ++ d.seat.prompt ++ d.seat.ink d.text)
  /-- Tab. There is no completion -/
  | tabNone {d : Desk} : d.seat.Offers d.text [] → Pressed d (.ascii 9) d []
  /-- there is one -/
  | tabOne {d : Desk} {c} : d.seat.Offers d.text [c] → Pressed d (.ascii 9) { d.write (c ++ bs!" ") with seat := d.seat.prompted } (d.seat.instead d.line (c ++ bs!" "))
  /-- there are several, with more in common than has been typed -/
  | tabMore {d : Desk} {a b cs pre} : d.seat.Offers d.text (a :: b :: cs) → Common pre (a :: b :: cs) → d.text.length < pre.length → Pressed d (.ascii 9) { d.write pre with seat := d.seat.prompted } (d.seat.instead d.line pre)
  /-- there are several others, which are shown -/
  | tabList {d : Desk} {a b cs pre} : d.seat.Offers d.text (a :: b :: cs) → Common pre (a :: b :: cs) → pre.length ≤ d.text.length →
      Pressed d (.ascii 9) { d.write d.text with seat := d.seat.prompted } (bs!"\n" ++ (a :: b :: cs).flatMap (bs!"\t" ++ ·) ++ bs!"\n" ++ d.seat.prompt ++ d.seat.ink d.text)

/-! ### All sessions -/

/-- What can happen. Session 0 is that of the local user, the others are those of clients. -/
inductive Cue where
  /-- a client connects; room for some lines in the history -/
  | comes (i room : Nat) (tty : Bool)
  /-- a key is handled -/
  | key (i : Nat) (k : Terminal.Key)
  /-- negotiations of a client are answered -/
  | answers (i : Nat) (text : Str)
  /-- the session of a client is destroyed -/
  | goes (i : Nat)
  deriving DecidableEq, Repr

/-- The text consists of answers to negotiations. -/
def Negotiates (text : Str) : Prop := ∃ l : List (Spec.Telnet.Verb × Byte), text = l.flatMap fun x => [255, x.1.code, x.2]

/-- What happens then; `greeting` is what the telnet protocol demands when a client connects. -/
inductive Plays (E : Env) (store : τ → List Str → τ) (stored : τ → List Str) (greeting : Str) : Stage τ → Cue → Stage τ → Prop
  /-- the greeting and the first prompt, in the colours that have been chosen by whomever -/
  | comes {H : Stage τ} {i room tty} {s : Seat} : H.hall.over = false → H.hall.chairs i = .empty → s = ⟨.root, H.hall.colour, H.hall.gone, tty, Book.open room (stored H.hall.storage)⟩ →
      Plays E store stored greeting H (.comes i room tty) ⟨H.hall.put i (.guest (.of s.prompted (greeting ++ s.prompt))), H.write i .none⟩
  /-- a key is handled, in the colours that have been chosen by whomever -/
  | press {H : Stage τ} {i k g d t} : H.hall.over = false → H.hall.chairs i = .guest g → Pressed (H.desk i g) k d t →
      Plays E store stored greeting H (.key i k) ⟨H.hall.put i (.guest (.of d.seat (g.screen ++ t))), H.write i ⟨d.line, d.back⟩⟩
  /-- the line is answered, and the next prompt written; all others hear what is said to all, and nothing else. After a blank line the user is still where they were in the history. -/
  | answer {H : Stage τ} {i g s' t text b} : H.hall.over = false → H.hall.chairs i = .guest g → Answer E (H.hall.seat g) (H.typing i).text s' t → Said E (H.hall.seat g) (H.typing i).text text →
      (Lex.Line (H.typing i).text [] ∧ b = (H.typing i).back) ∨ (¬ Lex.Line (H.typing i).text [] ∧ b = none) →
      Plays E store stored greeting H (.key i .ret)
        ⟨{ H.hall with colour := s'.colour, gone := s'.gone, chairs := fun j => if j = i then .guest (.of s'.prompted (g.screen ++ bs!"\r\n" ++ t ++ s'.prompt)) else (H.hall.chairs j).hears text }, H.write i ⟨⟨[], []⟩, b⟩⟩
  /-- the session ends, and its lines are saved; the others hear nothing; if it is the local one, the program ends -/
  | quits {H : Stage τ} {i g saved} : H.hall.over = false → H.hall.chairs i = .guest g → Saves (H.hall.seat g) (H.typing i).text saved →
      Plays E store stored greeting H (.key i .ret) ⟨{ H.hall.put i (.leaving (g.screen ++ bs!"\r\n" ++ farewell (i != 0))) with storage := store H.hall.storage saved, over := i == 0 }, H.write i .none⟩
  /-- Ctrl-D ends the session, too -/
  | ends {H : Stage τ} {i g} : H.hall.over = false → H.hall.chairs i = .guest g →
      Plays E store stored greeting H (.key i .eof) ⟨{ H.hall.put i (.leaving (g.screen ++ farewell (i != 0))) with storage := store H.hall.storage g.book.saved, over := i == 0 }, H.write i .none⟩
  /-- the answers appear between the rest -/
  | answers {H : Stage τ} {i g text} : H.hall.over = false → H.hall.chairs i = .guest g → Negotiates text →
      Plays E store stored greeting H (.answers i text) ⟨H.hall.put i (.guest { g with screen := g.screen ++ text }), H.typing⟩
  /-- the session is there no more, the others do not notice -/
  | goes {H : Stage τ} {i} : H.hall.over = false → i ≠ 0 → H.hall.chairs i ≠ .empty → Plays E store stored greeting H (.goes i) ⟨H.hall.put i .empty, H.typing⟩

/-- The key is one about which nothing is said: Enter after a line for which the behaviour is undefined, or one that refers to itself in the history or to a line that does, or through more lines than there is room on the stack for;
    the arrow up if there is no room for any line in the history; Tab after a line that is too long for the stack, or, if characters are signed, one with a negative character. -/
def Unsaid (E : Env) (depth : Nat) (d : Desk) : Key → Prop
  | .ret => Fails E d.seat d.text ∨ ¬ Within E (depth - 1) d.seat d.text
  | .up => d.seat.book.room = 0
  | .ascii c => c = 9 ∧ (depth < 2 * d.text.length + 2 ∨ (E.p.charSigned = true ∧ ∃ x ∈ d.text, 128 ≤ x.toNat))
  | _ => False

/-- A key about which nothing is said, or one for a session that has ended. -/
def Unclear (E : Env) (depth : Nat) (H : Stage τ) : Cue → Prop
  | .key i k => (∀ g, H.hall.chairs i ≠ .guest g) ∨ ∃ g, H.hall.chairs i = .guest g ∧ Unsaid E depth (H.desk i g) k
  | _ => False

/-- What a client is sent first. -/
abbrev welcome : Str := Spec.Telnet.welcome

/-- One thing after the other. -/
inductive Performance (E : Env) (store : τ → List Str → τ) (stored : τ → List Str) (greeting : Str) : Stage τ → List Cue → Stage τ → Prop
  | nil {H} : Performance E store stored greeting H [] H
  | cons {H H' H'' m ms} : Plays E store stored greeting H m H' → Performance E store stored greeting H' ms H'' → Performance E store stored greeting H (m :: ms) H''

/-- The program has been started: the local user sees a prompt. -/
def Stage.start (stored : τ → List Str) (room : Nat) (tty : Bool) (st : τ) : Stage τ :=
  let s : Seat := ⟨.root, false, false, tty, Book.open room (stored st)⟩
  ⟨(Hall.init st).put 0 (.guest (.of s.prompted s.prompt)), fun _ => .none⟩

end Verif.Showcase
