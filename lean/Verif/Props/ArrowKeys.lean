import Verif.Props.Processor
import Verif.Props.History

set_option linter.unusedSimpArgs false

/-!
# C22: the keys Up and Down
-/

namespace Verif.Props
open Processor (Proc keypressed)
open Verif.Terminal (Term Key Symbol)
open Verif.History

variable {σ τ : Type} (A : App σ τ)

/-- The line on the screen and the history may have changed; nothing else. -/
def Recalled (p : Proc σ τ) (s : Str) (h : History.History) (p' : Proc σ τ) : Prop :=
  p'.term.line = s ∧ ∃ io, p'.w = { p.w with hist := h, io := io } ∧ p'.active = p.active

theorem up_key (fuel : Nat) (p : Proc σ τ) {s : Str} {h : History.History} (hp : previous p.w.hist p.term.line = .ok (s, h)) :
    ∃ p', keypressed A fuel p .up = .ok (p', none) ∧ p'.term.pos = s.length ∧ Recalled p s h p' := by
  refine ⟨⟨{ p.w with hist := h, io := (Verif.Terminal.setLine p.term p.w.io s).2 }, ⟨s, s.length⟩, p.active⟩, ?_, rfl, rfl, _, rfl, rfl⟩
  simp only [keypressed, Terminal.keypressed, Processor.newCommand, bind, Except.bind, hp]
  rfl

theorem down_key (fuel : Nat) (p : Proc σ τ) {s : Str} {h : History.History} (hp : next p.w.hist = .ok (s, h)) :
    ∃ p', keypressed A fuel p .down = .ok (p', none) ∧ p'.term.pos = s.length ∧ Recalled p s h p' := by
  refine ⟨⟨{ p.w with hist := h, io := (Verif.Terminal.setLine p.term p.w.io s).2 }, ⟨s, s.length⟩, p.active⟩, ?_, rfl, rfl, _, rfl, rfl⟩
  simp only [keypressed, Terminal.keypressed, Processor.newCommand, bind, Except.bind, hp]
  rfl

theorem keys_append (fuel : Nat) (ks ks' : List Key) : ∀ (p p' : Proc σ τ), Processor.run A fuel ks p = .ok (p', none) → Processor.run A fuel (ks ++ ks') p = Processor.run A fuel ks' p' := by
  induction ks with
  | nil => intro p p' h; cases h; rfl
  | cons k ks ih =>
    intro p p' h
    simp only [List.cons_append, Processor.run, bind, Except.bind] at h ⊢
    cases hk : keypressed A fuel p k with
    | error f => rw [hk] at h; cases h
    | ok r =>
      obtain ⟨p1, x⟩ := r
      rw [hk] at h
      cases x with
      | some e => cases h
      | none => exact ih p1 p' h

theorem keys_snoc (fuel : Nat) (k : Key) (n : Nat) {p p1 p2 : Proc σ τ} (h1 : Processor.run A fuel (List.replicate n k) p = .ok (p1, none)) (h2 : keypressed A fuel p1 k = .ok (p2, none)) :
    Processor.run A fuel (List.replicate (n + 1) k) p = .ok (p2, none) := by
  rw [List.replicate_succ', keys_append A fuel _ _ p p1 h1]
  simp only [Processor.run, bind, Except.bind, h2]

theorem up_keys (fuel : Nat) (p : Proc σ τ) (k : Nat) : ∀ {s : Str} {h : History.History}, ups k p.term.line p.w.hist = .ok (s, h) →
    ∃ p', Processor.run A fuel (List.replicate k .up) p = .ok (p', none) ∧ (1 ≤ k → p'.term.pos = s.length) ∧ Recalled p s h p' := by
  induction k with
  | zero => intro s h hu; cases hu; exact ⟨p, rfl, by omega, rfl, _, rfl, rfl⟩
  | succ k ih =>
    intro s h hu
    simp only [ups, bind, Except.bind] at hu
    cases hk : ups k p.term.line p.w.hist with
    | error f => rw [hk] at hu; cases hu
    | ok r =>
      obtain ⟨s1, h1⟩ := r
      rw [hk] at hu
      obtain ⟨p1, r1, _, r3, io, r4, r5⟩ := ih hk
      obtain ⟨p2, q1, q2, q3, io2, q4, q5⟩ := up_key A fuel p1 (s := s) (h := h) (by rw [r3, r4]; exact hu)
      exact ⟨p2, keys_snoc A fuel _ k r1 q1, fun _ => q2, q3, io2, by rw [q4, r4], q5.trans r5⟩

theorem down_keys (fuel : Nat) (p : Proc σ τ) (k : Nat) : ∀ {s : Str} {h : History.History}, downs k p.term.line p.w.hist = .ok (s, h) →
    ∃ p', Processor.run A fuel (List.replicate k .down) p = .ok (p', none) ∧ (1 ≤ k → p'.term.pos = s.length) ∧ Recalled p s h p' := by
  induction k with
  | zero => intro s h hu; cases hu; exact ⟨p, rfl, by omega, rfl, _, rfl, rfl⟩
  | succ k ih =>
    intro s h hu
    simp only [downs, bind, Except.bind] at hu
    cases hk : downs k p.term.line p.w.hist with
    | error f => rw [hk] at hu; cases hu
    | ok r =>
      obtain ⟨s1, h1⟩ := r
      rw [hk] at hu
      obtain ⟨p1, r1, _, r3, io, r4, r5⟩ := ih hk
      obtain ⟨p2, q1, q2, q3, io2, q4, q5⟩ := down_key A fuel p1 (s := s) (h := h) (by rw [r4]; exact hu)
      exact ⟨p2, keys_snoc A fuel _ k r1 q1, fun _ => q2, q3, io2, by rw [q4, r4], q5.trans r5⟩

/-- **C22** (partial) The same at the keys of a terminal: pressing the key Up `k` times and then Down `j` times leaves the entry number min(k, last) - j in the line, with the cursor at its end, and does nothing else but redraw the line. -/
theorem C22_keys_partial (fuel : Nat) (p : Proc σ τ) (hw : WF p.w.hist) (hm : 1 ≤ p.w.hist.maxSize) (hmode : p.w.hist.mode = .inserting) (k j : Nat) (hk : 1 ≤ k)
    (hj : j ≤ min k ((browseView p.w.hist p.term.line).length - 1)) :
    let view := browseView p.w.hist p.term.line
    ∃ p', Processor.run A fuel (List.replicate k .up ++ List.replicate j .down) p = .ok (p', none) ∧ view[min k (view.length - 1) - j]? = some p'.term.line ∧ p'.term.pos = p'.term.line.length ∧
      SameButEditing p p' := by
  intro view
  obtain ⟨s, h1, u1, u2, u3⟩ := C22_up_down_partial p.w.hist hw hm hmode p.term.line k hk
  obtain ⟨s', h2, d1, d2⟩ := u3 j hj
  obtain ⟨p1, r1, r2, r3, io, r4, r5⟩ := up_keys A fuel p k u1
  obtain ⟨p2, q1, q2, q3, io2, q4, q5⟩ := down_keys A fuel p1 j (s := s') (h := h2) (by rw [r3, r4]; exact d1)
  refine ⟨p2, by rw [keys_append A fuel _ _ p p1 r1, q1], by rw [q3]; exact d2, ?_, io2, h2, by rw [q4, r4], q5.trans r5⟩
  by_cases hj0 : j = 0
  · subst hj0
    cases q1
    rw [r2 hk, r3]
  · rw [q2 (by omega), q3]

/-- Two entries, one of them recalled, and back. -/
def typing : Proc (List Nat) (List Str) := ⟨{ Sample.world with hist := ⟨5, [bs!"b", bs!"a"], 0, 2, .inserting, 0⟩ }, ⟨bs!"x", 1⟩, true⟩

example : (Processor.run Sample.app 1 [.up, .up, .down] typing).map (fun r => r.1.term) = .ok ⟨bs!"b", 1⟩ := by rfl
example : (Processor.run Sample.app 1 [.up, .up, .down, .down] typing).map (fun r => r.1.term) = .ok ⟨bs!"x", 1⟩ := by rfl

end Verif.Props
