import Verif.Spec.Display

/-!
# Specification of a display of limited width

A display with `W` columns that behaves like `xterm`: a character written into the last column leaves the cursor there, and the next character goes to the beginning of the next row; BS does not leave
the row. Otherwise like `Screen` (rows are not limited, nothing scrolls).
-/

namespace Verif.Spec

structure WideScreen where
  cell : Nat → Nat → Byte
  row : Nat
  col : Nat
  esc : Esc
  /-- the last column has been written: the next character wraps -/
  pending : Bool

namespace WideScreen

def wrap (s : WideScreen) : WideScreen := if s.pending then { s with row := s.row + 1, col := 0, pending := false } else s

def write (W : Nat) (s : WideScreen) (ch : Byte) : WideScreen :=
  { s with
    cell := fun r c => if r = s.row ∧ c = s.col then ch else s.cell r c
    col := if s.col + 1 < W then s.col + 1 else s.col
    pending := !decide (s.col + 1 < W) }

def eraseBelow (s : WideScreen) : WideScreen :=
  { s with cell := fun r c => if s.row < r ∨ (r = s.row ∧ s.col ≤ c) then b%' ' else s.cell r c }

def step (W : Nat) (s : WideScreen) (ch : Byte) : WideScreen :=
  match s.esc with
  | .normal =>
    if ch = 8 then { s with col := s.col - 1, pending := false }
    else if ch = 9 then { s with col := min ((s.col / 8 + 1) * 8) (W - 1), pending := false }
    else if ch = 10 then { s with row := s.row + 1, col := 0, pending := false }
    else if ch = 13 then { s with col := 0, pending := false }
    else if ch = 27 then { s with esc := .esc }
    else if ch.toNat < 32 ∨ ch = 127 then s
    else s.wrap.write W ch
  | .esc => if ch = b%'[' then { s with esc := .csi [] } else { s with esc := .normal }
  | .csi ps =>
    if isDigit ch ∨ ch = b%';' then { s with esc := .csi (ps ++ [ch]) }
    else if ch = b%'H' ∧ ps = [] then { s with row := 0, col := 0, esc := .normal, pending := false }
    else if ch = b%'J' ∧ ps = [] then { s.eraseBelow with esc := .normal }
    else { s with esc := .normal }

def run (W : Nat) (s : WideScreen) (bytes : Str) : WideScreen := bytes.foldl (step W) s

end WideScreen

/-- A display that shows the same. -/
def Screen.wide (s : Screen) : WideScreen := ⟨s.cell, s.row, s.col, s.esc, false⟩

/-- The display that shows `line` from column `p` of row `R` on, continued in the rows below, with blanks after it, and the cursor after its first `pos` characters. (If these just fill a row, the cursor
    stays in the last column of this row.) What is above and to the left is given by `base`. -/
def wscr (W : Nat) (base : Nat → Nat → Byte) (R p : Nat) (line : Str) (pos : Nat) : WideScreen where
  cell r c := if r < R ∨ (r = R ∧ c < p) ∨ W ≤ c then base r c else line.getD ((r - R) * W + c - p) b%' '
  row := if (p + pos) % W = 0 ∧ 0 < pos then R + (p + pos) / W - 1 else R + (p + pos) / W
  col := if (p + pos) % W = 0 ∧ 0 < pos then W - 1 else (p + pos) % W
  esc := .normal
  pending := decide ((p + pos) % W = 0 ∧ 0 < pos)

end Verif.Spec
