import Verif.Spec.Showcase

/-!
# What the program `complete` should do when there are several sessions (C131)
-/

namespace Verif.Showcase

/-- Somebody with a session: their menu, whether escape sequences are written, what they have entered, and all that has been written to their stream. -/
structure Guest where
  place : Place
  escapes : Bool
  book : Book
  screen : Str
  deriving DecidableEq, Repr

/-- A place for a session. -/
inductive Chair where
  | empty
  | guest (g : Guest)
  /-- the session has ended, but has not been destroyed yet -/
  | leaving (screen : Str)
  deriving DecidableEq, Repr

/-- All sessions, and what they share. Session 0 is that of the local user, the others are those of clients. -/
structure Hall (τ : Type) where
  /-- colours are switched on -/
  colour : Bool
  /-- the commands `color` and `nocolor` have been removed -/
  gone : Bool
  /-- the history storage -/
  storage : τ
  chairs : Nat → Chair
  /-- the program has been stopped -/
  over : Bool

variable {τ : Type}

/-- There are no sessions. -/
def Hall.init (st : τ) : Hall τ := ⟨false, false, st, fun _ => .empty, false⟩

/-- What the commands and the prompt of a session depend on. -/
def Hall.seat (H : Hall τ) (g : Guest) : Seat := ⟨g.place, H.colour, H.gone, g.escapes, g.book⟩

def Guest.of (s : Seat) (screen : Str) : Guest := ⟨s.place, s.escapes, s.book, screen⟩

/-- Something is written to all streams. -/
def Chair.hears (text : Str) : Chair → Chair
  | .empty => .empty
  | .guest g => .guest { g with screen := g.screen ++ text }
  | .leaving t => .leaving (t ++ text)

def Hall.put (H : Hall τ) (i : Nat) (c : Chair) : Hall τ := { H with chairs := fun j => if j = i then c else H.chairs j }

/-- What can happen. -/
inductive Move where
  /-- a session is created, with room for some lines; its stream is a terminal, or not -/
  | comes (i room : Nat) (tty : Bool)
  /-- a line is entered -/
  | line (i : Nat) (l : Str)
  /-- the session is destroyed: the client has disconnected -/
  | goes (i : Nat)

/-- What all others are told because of the line. -/
def Said (E : Env) (s : Seat) (l text : Str) : Prop := Announces E s l text ∨ (text = [] ∧ ∀ t, ¬ Announces E s l t)

/-- What happens then. -/
inductive Happens (E : Env) (store : τ → List Str → τ) (stored : τ → List Str) : Hall τ → Move → Hall τ → Prop
  /-- the first prompt, in the colours that have been chosen by whomever -/
  | comes {H : Hall τ} {i room tty} {s : Seat} : H.over = false → H.chairs i = .empty → s = ⟨.root, H.colour, H.gone, tty, Book.open room (stored H.storage)⟩ → Happens E store stored H (.comes i room tty) (H.put i (.guest (.of s.prompted s.prompt)))
  /-- the line is answered, and the next prompt written; all others hear what is said to all, and nothing else -/
  | answer {H : Hall τ} {i l g s' t text} : H.over = false → H.chairs i = .guest g → Answer E (H.seat g) l s' t → Said E (H.seat g) l text →
      Happens E store stored H (.line i l)
        { H with colour := s'.colour, gone := s'.gone, chairs := fun j => if j = i then .guest (.of s'.prompted (g.screen ++ t ++ s'.prompt)) else (H.chairs j).hears text }
  /-- the session ends, and its lines are saved; the others hear nothing; if it is the local one, the program ends -/
  | quits {H : Hall τ} {i l g saved} : H.over = false → H.chairs i = .guest g → Saves (H.seat g) l saved →
      Happens E store stored H (.line i l) { H.put i (.leaving (g.screen ++ farewell (i != 0))) with storage := store H.storage saved, over := i == 0 }
  | goes {H : Hall τ} {i} : H.over = false → H.chairs i ≠ .empty → Happens E store stored H (.goes i) (H.put i .empty)

/-- It makes no sense, or what it does is undefined, or it is a line that refers through more than so many lines of the history (or to itself). -/
def Wrong (E : Env) (deep : Nat) (H : Hall τ) : Move → Prop
  | .comes i _ _ => H.over = true ∨ H.chairs i ≠ .empty
  | .line i l => H.over = true ∨ (∀ g, H.chairs i ≠ .guest g) ∨ ∃ g, H.chairs i = .guest g ∧ (Fails E (H.seat g) l ∨ ¬ Within E deep (H.seat g) l)
  | .goes i => H.over = true ∨ H.chairs i = .empty

/-- One thing after the other. -/
inductive Evening (E : Env) (store : τ → List Str → τ) (stored : τ → List Str) : Hall τ → List Move → Hall τ → Prop
  | nil {H} : Evening E store stored H [] H
  | cons {H H' H'' m ms} : Happens E store stored H m H' → Evening E store stored H' ms H'' → Evening E store stored H (m :: ms) H''

end Verif.Showcase
