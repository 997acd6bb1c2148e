import Verif.Basic

/-!
# Specification of a display

An unbounded grid of cells (lines never wrap, the screen never scrolls), a cursor, and the control functions the library
uses: BS, HT, LF (which also returns the carriage, as a terminal line discipline or the telnet encoding makes it do),
CR, `CSI … m` (attributes, not displayed), `CSI H` (home) and `CSI J` (erase below).
-/

namespace Verif.Spec

inductive Esc where
  | normal | esc | csi (params : Str)
  deriving DecidableEq, Repr

structure Screen where
  cell : Nat → Nat → Byte
  row : Nat
  col : Nat
  esc : Esc

def printable (c : Byte) : Bool := decide (32 ≤ c.toNat) && decide (c.toNat ≤ 126)

def Printable (s : Str) : Prop := ∀ c ∈ s, printable c = true

namespace Screen

def putChar (s : Screen) (ch : Byte) : Screen :=
  { s with cell := fun r c => if r = s.row ∧ c = s.col then ch else s.cell r c, col := s.col + 1 }

/-- Erase from the cursor to the end of the screen. -/
def eraseBelow (s : Screen) : Screen :=
  { s with cell := fun r c => if s.row < r ∨ (r = s.row ∧ s.col ≤ c) then b%' ' else s.cell r c }

def step (s : Screen) (ch : Byte) : Screen :=
  match s.esc with
  | .normal =>
    if ch = 8 then { s with col := s.col - 1 }
    else if ch = 9 then { s with col := (s.col / 8 + 1) * 8 }
    else if ch = 10 then { s with row := s.row + 1, col := 0 }
    else if ch = 13 then { s with col := 0 }
    else if ch = 27 then { s with esc := .esc }
    else if ch.toNat < 32 ∨ ch = 127 then s
    else s.putChar ch
  | .esc => if ch = b%'[' then { s with esc := .csi [] } else { s with esc := .normal }
  | .csi ps =>
    if isDigit ch ∨ ch = b%';' then { s with esc := .csi (ps ++ [ch]) }
    else if ch = b%'H' ∧ ps = [] then { s with row := 0, col := 0, esc := .normal }
    else if ch = b%'J' ∧ ps = [] then { s.eraseBelow with esc := .normal }
    else { s with esc := .normal }

def run (s : Screen) (bytes : Str) : Screen := bytes.foldl step s

end Screen

/-- The screen in which row `R` shows `line` from column `p` on, followed by blanks, with the cursor at `p + pos`; what is left of the
    line and above it is given by `base`; below there are blanks. -/
def scr (base : Nat → Nat → Byte) (R p : Nat) (line : Str) (pos : Nat) : Screen where
  cell r c := if r < R then base r c else if r = R then (if c < p then base r c else line.getD (c - p) b%' ') else b%' '
  row := R
  col := p + pos
  esc := .normal

end Verif.Spec
