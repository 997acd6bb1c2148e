import Verif.Props.Net
import Verif.Proofs.Alike

set_option linter.unusedSimpArgs false

/-!
# Key presses in sessions of an application whose visible behaviour does not depend on (a part of) its state
-/

namespace Verif.Props
open Terminal (Key)
open Processor (Proc)

variable {σ τ : Type} {Q : σ → σ → Prop} {A : App σ τ}

/-- Command processors that differ at most in the application's state, where they are related, and the storage. -/
structure LikeProc (Q : σ → σ → Prop) (p q : Proc σ τ) : Prop where
  w : Like Q p.w q.w
  term : q.term = p.term
  active : q.active = p.active

/-- Results that differ at most in the same way. -/
def AlikeKeys (Q : σ → σ → Prop) (r r' : Except Fault (Proc σ τ × Option Exn)) : Prop :=
  (∃ f, r = .error f ∧ r' = .error f) ∨ ∃ p q x, r = .ok (p, x) ∧ r' = .ok (q, x) ∧ LikeProc Q p q

theorem like_io {w v : World σ τ} (h : Like Q w v) (io : Io) : Like Q { w with io := io } { v with io := io } := by
  obtain ⟨s, t, hq, rfl⟩ := h; exact ⟨s, t, hq, rfl⟩

theorem likeProc_setLine {w v : World σ τ} (hw : Like Q w v) (t : Terminal.Term) (a : Bool) (s : Str) : LikeProc Q (Processor.setLine ⟨w, t, a⟩ s) (Processor.setLine ⟨v, t, a⟩ s) := by
  have hi : v.io = w.io := by obtain ⟨s, t, _, rfl⟩ := hw; rfl
  simp only [Processor.setLine, hi]
  exact ⟨like_io hw _, rfl, rfl⟩

theorem like_prompt {w v : World σ τ} (h : Like Q w v) : (∃ f, prompt w = .error f ∧ prompt v = .error f) ∨ ∃ w' v', prompt w = .ok w' ∧ prompt v = .ok v' ∧ Like Q w' v' := by
  obtain ⟨s, t, hq, rfl⟩ := h
  simp only [prompt]
  split
  · exact .inr ⟨_, _, rfl, rfl, s, t, hq, rfl⟩
  · split
    · exact .inr ⟨_, _, rfl, rfl, s, t, hq, rfl⟩
    · exact .inl ⟨_, rfl, rfl⟩

theorem like_redraw {p q : Proc σ τ} (h : LikeProc Q p q) (line : Str) :
    (∃ f, Processor.redraw p line = .error f ∧ Processor.redraw q line = .error f) ∨ ∃ p' q', Processor.redraw p line = .ok p' ∧ Processor.redraw q line = .ok q' ∧ LikeProc Q p' q' := by
  simp only [Processor.redraw, bind, Except.bind]
  rcases like_prompt h.w with ⟨f, e1, e2⟩ | ⟨w', v', e1, e2, hl⟩
  · rw [e1, e2]; exact .inl ⟨f, rfl, rfl⟩
  · rw [e1, e2]
    rw [h.term, h.active]
    exact .inr ⟨_, _, rfl, rfl, likeProc_setLine hl _ _ _⟩

theorem completions_like (plat : Platform) (fuel : Nat) {w v : World σ τ} (h : Like Q w v) (line : Str) : Completion.completions plat fuel v line = Completion.completions plat fuel w line := by
  obtain ⟨s, t, _, rfl⟩ := h
  rfl

/-- A key press has the same visible effect. -/
theorem alike_keypressed (hA : A.BlindTo Q) (fuel : Nat) {p q : Proc σ τ} (h : LikeProc Q p q) (k : Key) : AlikeKeys Q (Processor.keypressed A fuel p k) (Processor.keypressed A fuel q k) := by
  obtain ⟨w, t, a⟩ := p; obtain ⟨v, t', a'⟩ := q
  obtain ⟨hw, h2, h3⟩ := h
  simp only at hw h2 h3
  subst h2; subst h3
  have hi : v.io = w.io := by obtain ⟨s, t, _, rfl⟩ := hw; rfl
  simp only [Processor.keypressed, bind, Except.bind, hi]
  cases Terminal.keypressed t' w.io k with
  | error f => exact .inl ⟨f, rfl, rfl⟩
  | ok r =>
    obtain ⟨t, io, s⟩ := r
    simp only
    have hl : Like Q { w with io := io } { v with io := io } := like_io hw io
    obtain ⟨w1, hw1⟩ : ∃ w1, w1 = { w with io := io } := ⟨_, rfl⟩
    obtain ⟨v1, hv1⟩ : ∃ v1, v1 = { v with io := io } := ⟨_, rfl⟩
    rw [← hw1, ← hv1] at hl ⊢
    have hh : v1.hist = w1.hist := by obtain ⟨s, t, _, rfl⟩ := hl; rfl
    cases s with
    | nothing => exact .inr ⟨_, _, _, rfl, rfl, hl, rfl, rfl⟩
    | eof =>
      simp only [Processor.newCommand, bind, Except.bind]
      have k := alike_exit hA hl
      revert k
      generalize exitSession A w1 = r; generalize exitSession A v1 = r'
      intro k
      cases k with
      | error f => exact .inl ⟨f, rfl, rfl⟩
      | ok o h => exact .inr ⟨_, _, _, rfl, rfl, h, rfl, rfl⟩
    | command c =>
      simp only [Processor.newCommand, bind, Except.bind]
      have k := alike_feed hA fuel c hl
      revert k
      generalize feed A fuel c w1 = r; generalize feed A fuel c v1 = r'
      intro k
      cases k with
      | error f => exact .inl ⟨f, rfl, rfl⟩
      | @ok w2 v2 o h =>
        cases o with
        | some e => exact .inr ⟨_, _, _, rfl, rfl, h, rfl, rfl⟩
        | none =>
          simp only
          rcases like_prompt h with ⟨f, e1, e2⟩ | ⟨w', v', e1, e2, hl⟩
          · rw [e1, e2]; exact .inl ⟨f, rfl, rfl⟩
          · rw [e1, e2]; exact .inr ⟨_, _, _, rfl, rfl, hl, rfl, rfl⟩
    | down =>
      simp only [Processor.newCommand, bind, Except.bind, hh]
      cases History.next w1.hist with
      | error f => exact .inl ⟨f, rfl, rfl⟩
      | ok r => exact .inr ⟨_, _, _, rfl, rfl, likeProc_setLine (like_hist hl _) _ _ _⟩
    | up =>
      simp only [Processor.newCommand, bind, Except.bind, hh]
      cases History.previous w1.hist t.line with
      | error f => exact .inl ⟨f, rfl, rfl⟩
      | ok r => exact .inr ⟨_, _, _, rfl, rfl, likeProc_setLine (like_hist hl _) _ _ _⟩
    | tab =>
      simp only [Processor.newCommand, Processor.tab, bind, Except.bind, completions_like A.plat fuel hl]
      cases Completion.completions A.plat fuel w1 t.line with
      | error f => exact .inl ⟨f, rfl, rfl⟩
      | ok cs =>
        match cs with
        | [] => exact .inr ⟨_, _, _, rfl, rfl, hl, rfl, rfl⟩
        | [c] => exact .inr ⟨_, _, _, rfl, rfl, likeProc_setLine hl _ _ _⟩
        | c :: d :: cs =>
          simp only
          cases Completion.commonPrefix (c :: d :: cs) with
          | error f => exact .inl ⟨f, rfl, rfl⟩
          | ok pre =>
            simp only
            by_cases hp : pre.length > t.line.length
            · rw [if_pos hp, if_pos hp]
              exact .inr ⟨_, _, _, rfl, rfl, likeProc_setLine hl _ _ _⟩
            · rw [if_neg hp, if_neg hp]
              rcases like_redraw (p := ⟨(w1.put bs!"\n").put (Processor.items (c :: d :: cs) ++ bs!"\n"), t, a'⟩) (q := ⟨(v1.put bs!"\n").put (Processor.items (c :: d :: cs) ++ bs!"\n"), t, a'⟩)
                ⟨like_put (like_put hl _) _, rfl, rfl⟩ t.line with ⟨f, e1, e2⟩ | ⟨p', q', e1, e2, hp⟩
              · rw [e1, e2]; exact .inl ⟨f, rfl, rfl⟩
              · rw [e1, e2]; exact .inr ⟨_, _, _, rfl, rfl, hp⟩
    | clear =>
      simp only [Processor.newCommand, bind, Except.bind]
      rcases like_redraw (p := ⟨w1.put Processor.clearScreen, t, a'⟩) (q := ⟨v1.put Processor.clearScreen, t, a'⟩) ⟨like_put hl _, rfl, rfl⟩ t.line with ⟨f, e1, e2⟩ | ⟨p', q', e1, e2, hp⟩
      · rw [e1, e2]; exact .inl ⟨f, rfl, rfl⟩
      · rw [e1, e2]; exact .inr ⟨_, _, _, rfl, rfl, hp⟩

end Verif.Props
