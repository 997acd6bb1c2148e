import Verif.Basic

/-!
# Specification of text in UTF-8 (The Unicode Standard, table 3-7) and of an editor for it: a two-sided buffer of characters
-/

namespace Verif.Spec

/-- `80..BF`: a byte that continues a character. -/
def isCont (b : Byte) : Bool := decide (0x80 ≤ b.toNat) && decide (b.toNat ≤ 0xBF)

/-- How many bytes follow a byte that begins a character. -/
def following (b : Byte) : Option Nat :=
  if b.toNat ≤ 0x7F then some 0
  else if 0xC2 ≤ b.toNat ∧ b.toNat ≤ 0xDF then some 1
  else if 0xE0 ≤ b.toNat ∧ b.toNat ≤ 0xEF then some 2
  else if 0xF0 ≤ b.toNat ∧ b.toNat ≤ 0xF4 then some 3
  else none

/-- The restrictions on the second byte: no overlong forms, no surrogates, nothing above U+10FFFF. -/
def secondOk (b c : Byte) : Bool :=
  if b = 0xE0 then decide (0xA0 ≤ c.toNat)
  else if b = 0xED then decide (c.toNat ≤ 0x9F)
  else if b = 0xF0 then decide (0x90 ≤ c.toNat)
  else if b = 0xF4 then decide (c.toNat ≤ 0x8F)
  else true

/-- The bytes are one character. -/
def char8 : Str → Bool
  | [] => false
  | b :: cs => following b == some cs.length && cs.all isCont && (match cs with | [] => true | c :: _ => secondOk b c)

/-- The bytes are characters, one after the other. -/
def Utf8 (s : Str) : Prop := ∃ cs : List Str, (∀ c ∈ cs, char8 c = true) ∧ s = cs.flatten

/-- What the user wants to do. -/
inductive CharOp where
  | type (c : Str)
  | backspace | canc | left | right | home | «end» | enter
  deriving DecidableEq, Repr

/-- Typed characters are not empty and not the tabulator (which asks for completion). -/
def CharOp.typed : CharOp → Prop
  | .type c => c ≠ [] ∧ b%'\t' ∉ c
  | _ => True

/-- The characters before the cursor (nearest first) and those after it. -/
structure CharZip where
  before : List Str
  after : List Str
  deriving DecidableEq, Repr

namespace CharZip

def chars (z : CharZip) : List Str := z.before.reverse ++ z.after
def text (z : CharZip) : Str := z.chars.flatten

/-- The characters are well formed. -/
def ok (z : CharZip) : Prop := (∀ c ∈ z.before, char8 c = true) ∧ ∀ c ∈ z.after, char8 c = true

def op (z : CharZip) : CharOp → CharZip
  | .type c => { z with before := c :: z.before }
  | .backspace => { z with before := z.before.tail }
  | .canc => { z with after := z.after.tail }
  | .left => match z.before with | [] => z | c :: b => ⟨b, c :: z.after⟩
  | .right => match z.after with | [] => z | c :: a => ⟨c :: z.before, a⟩
  | .home => ⟨[], z.chars⟩
  | .end => ⟨z.chars.reverse, []⟩
  | .enter => ⟨[], []⟩

/-- The buffer after some operations, and the lines entered. -/
def run : List CharOp → CharZip → CharZip × List Str
  | [], z => (z, [])
  | o :: os, z => ((run os (z.op o)).1, (if o = .enter then [z.text] else []) ++ (run os (z.op o)).2)

end CharZip

end Verif.Spec
