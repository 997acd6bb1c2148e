import Verif.Spec.Display
import Verif.Spec.Editor
import Verif.Proofs.Decimal

set_option linter.unusedSimpArgs false

/-!
# Lemmas about the display
-/

namespace Verif.Spec
open Verif.Terminal

theorem run_append (s : Screen) (a b : Str) : s.run (a ++ b) = (s.run a).run b := by simp [Screen.run]
theorem run_nil (s : Screen) : s.run [] = s := rfl
theorem run_cons (s : Screen) (c : Byte) (b : Str) : s.run (c :: b) = (s.step c).run b := rfl

/-- Overwriting part of a line. -/
def overwrite (line : Str) (pos : Nat) (s : Str) : Str := line.take pos ++ s ++ line.drop (pos + s.length)

theorem step_printable (s : Screen) (c : Byte) (hn : s.esc = .normal) (hc : printable c = true) : s.step c = s.putChar c := by
  have h1 : 32 ≤ c.toNat ∧ c.toNat ≤ 126 := by simpa [printable] using hc
  have e : ∀ k : Byte, (k.toNat < 32 ∨ k.toNat = 127) → c ≠ k := by
    intro k hlt he
    subst he; omega
  unfold Screen.step
  rw [hn]
  simp only
  rw [if_neg (e 8 (by decide)), if_neg (e 9 (by decide)), if_neg (e 10 (by decide)),
    if_neg (e 13 (by decide)), if_neg (e 27 (by decide)), if_neg]
  intro h
  rcases h with h | h
  · omega
  · exact e 127 (by decide) h

theorem getD_overwrite_one (line : Str) (pos i : Nat) (c : Byte) (h : pos ≤ line.length) :
    (overwrite line pos [c]).getD i b%' ' = if i = pos then c else line.getD i b%' ' := by
  unfold overwrite
  simp only [List.getD_eq_getElem?_getD, List.append_assoc, List.getElem?_append, List.length_take, List.length_singleton,
    List.getElem?_drop, List.getElem?_take]
  rw [Nat.min_eq_left h]
  by_cases h1 : i < pos
  · simp [h1]; intro h2; omega
  · by_cases h2 : i = pos
    · subst h2; simp
    · simp only [h1, if_false, h2]
      have h3 : ¬ (i - pos < 1) := by omega
      have h4 : pos + 1 + (i - pos - 1) = i := by omega
      simp only [h3, if_false, h4]

theorem putChar_scr (base : Nat → Nat → Byte) (R p : Nat) (line : Str) (pos : Nat) (c : Byte) (h : pos ≤ line.length) :
    (scr base R p line pos).putChar c = scr base R p (overwrite line pos [c]) (pos + 1) := by
  unfold Screen.putChar scr
  congr 1
  funext r k
  simp only [getD_overwrite_one line pos _ c h]
  by_cases hr : r = R
  · subst hr
    simp only [true_and, Nat.lt_irrefl, if_false, if_true]
    by_cases hk : k = p + pos
    · subst hk
      have : ¬ (p + pos < p) := by omega
      simp [this]
    · simp only [hk, if_false]
      by_cases h2 : k < p
      · simp [h2]
      · have : ¬ (k - p = pos) := by omega
        simp [h2, this]
  · simp [hr]

theorem overwrite_length (line : Str) (pos : Nat) (s : Str) (h : pos ≤ line.length) :
    pos + s.length ≤ (overwrite line pos s).length := by
  simp [overwrite]; omega

theorem overwrite_overwrite (line : Str) (pos : Nat) (c : Byte) (s : Str) (h : pos ≤ line.length) :
    overwrite (overwrite line pos [c]) (pos + 1) s = overwrite line pos (c :: s) := by
  unfold overwrite
  have e1 : (line.take pos).length = pos := by simp [h]
  have e2 : (line.take pos ++ [c]).length = pos + 1 := by simp [h]
  have : (line.take pos ++ [c] ++ line.drop (pos + [c].length)).take (pos + 1) = line.take pos ++ [c] := by
    rw [← e2, List.take_left']
    rfl
  rw [this]
  have : (line.take pos ++ [c] ++ line.drop (pos + [c].length)).drop (pos + 1 + s.length)
      = line.drop (pos + (c :: s).length) := by
    rw [← List.drop_drop, ← e2, List.drop_left', List.drop_drop]
    · simp; congr 1; omega
    · rfl
  rw [this]; simp

/-- Printing printable text at the cursor. -/
theorem run_text (base : Nat → Nat → Byte) (R p : Nat) (s : Str) (hs : Printable s) : ∀ (line : Str) (pos : Nat), pos ≤ line.length →
    (scr base R p line pos).run s = scr base R p (overwrite line pos s) (pos + s.length) := by
  induction s with
  | nil => intro line pos h; simp [run_nil, overwrite]
  | cons c s ih =>
    intro line pos h
    rw [run_cons, step_printable _ _ rfl (hs c (by simp)), putChar_scr _ _ _ _ _ _ h,
      ih (fun d hd => hs d (by simp [hd])) _ _ (by have := overwrite_length line pos [c] h; simpa using this),
      overwrite_overwrite _ _ _ _ h]
    congr 1; simp; omega

/-- Backspaces move the cursor. -/
theorem run_bs (base : Nat → Nat → Byte) (R p : Nat) (line : Str) (n pos : Nat) (h : n ≤ pos) :
    (scr base R p line pos).run (rep n bs) = scr base R p line (pos - n) := by
  induction n generalizing pos with
  | zero => rfl
  | succ n ih =>
    have : (scr base R p line pos).step bs = scr base R p line (pos - 1) := by
      unfold scr Screen.step bs
      simp only [if_true]
      congr 1; omega
    rw [rep, List.replicate_succ, run_cons, this]
    rw [show List.replicate n bs = rep n bs from rfl, ih _ (by omega)]
    congr 1; omega

/-- Trailing blanks cannot be seen. -/
theorem scr_blanks (base : Nat → Nat → Byte) (R p : Nat) (line : Str) (n pos : Nat) :
    scr base R p (line ++ rep n b%' ') pos = scr base R p line pos := by
  unfold scr
  congr 1
  funext r c
  have : (line ++ rep n b%' ').getD (c - p) b%' ' = line.getD (c - p) b%' ' := by
    simp only [List.getD_eq_getElem?_getD, List.getElem?_append, rep]
    split
    · rfl
    · rename_i h
      rw [List.getElem?_eq_none (l := line) (by omega)]
      simp only [List.getElem?_replicate]
      split <;> rfl
  rw [this]

theorem run_csi_digits (s : Screen) (ps ds : Str) (h : ∀ d ∈ ds, isDigit d = true) (hs : s.esc = .csi ps) :
    s.run ds = { s with esc := .csi (ps ++ ds) } := by
  induction ds generalizing s ps with
  | nil => simp [run_nil, ← hs]
  | cons d ds ih =>
    rw [run_cons]
    have : s.step d = { s with esc := .csi (ps ++ [d]) } := by
      unfold Screen.step; rw [hs]; simp [h d (by simp)]
    rw [this, ih _ (ps ++ [d]) (fun x hx => h x (by simp [hx])) rfl]
    simp

theorem run_sgr (s : Screen) (n : Nat) (hn : s.esc = .normal) : s.run (27 :: b%'[' :: decimal n ++ [b%'m']) = s := by
  rw [List.cons_append, List.cons_append, run_cons, run_cons, run_append]
  have e : ((s.step 27).step b%'[') = { s with esc := .csi [] } := by
    simp [Screen.step, hn]
  rw [e, run_csi_digits _ [] _ (decimal_digits n) rfl]
  simp only [List.nil_append, run_cons, run_nil, Screen.step]
  have h1 : isDigit b%'m' = false := by decide
  have h2 : (b%'m' = b%';') = False := by decide
  have h3 : (b%'m' = b%'H') = False := by decide
  have h4 : (b%'m' = b%'J') = False := by decide
  simp [h1, h2, h3, h4, ← hn]

/-! ### Output streams -/

theorem run_put (s : Screen) (io : Io) (t : Str) : s.run (io.put t).out = (s.run io.out).run t := by
  simp [Io.put, run_append]

theorem run_io_sgr (s : Screen) (io : Io) (n : Nat) (h : (s.run io.out).esc = .normal) : s.run (io.sgr n).out = s.run io.out := by
  unfold Io.sgr
  split
  · rw [run_put, run_sgr _ _ h]
  · rfl

theorem run_beforeInput (s : Screen) (io : Io) (h : (s.run io.out).esc = .normal) : s.run io.beforeInput.out = s.run io.out := by
  unfold Io.beforeInput
  split
  · exact run_io_sgr s io.force 97 h
  · rfl

theorem run_afterInput (s : Screen) (io : Io) (h : (s.run io.out).esc = .normal) : s.run io.afterInput.out = s.run io.out :=
  run_io_sgr _ _ _ h

theorem run_beforePrompt (s : Screen) (io : Io) (h : (s.run io.out).esc = .normal) : s.run io.beforePrompt.out = s.run io.out := by
  unfold Io.beforePrompt
  split
  · have h1 : s.run (io.force.sgr 32).out = s.run io.out := run_io_sgr s io.force 32 h
    rw [run_io_sgr _ _ _ (by rw [h1]; exact h), h1]
  · rfl

theorem run_afterPrompt (s : Screen) (io : Io) (h : (s.run io.out).esc = .normal) : s.run io.afterPrompt.out = s.run io.out :=
  run_io_sgr _ _ _ h

end Verif.Spec
