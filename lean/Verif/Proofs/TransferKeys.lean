import Verif.Proofs.Transfer

set_option linter.unusedSimpArgs false

/-!
# Key presses in sessions of two applications that do the same
-/

namespace Verif.Transfer
open Terminal (Key)
open Processor (Proc)

variable {σ σ' τ : Type} {Q : Rel σ σ'} {A : App σ τ} {B : App σ' τ}

/-- Command processors that differ at most in the application's state, where they are related, and the storage. -/
structure LikeProc (Q : Rel σ σ') (p : Proc σ τ) (q : Proc σ' τ) : Prop where
  w : Like Q p.w q.w
  term : q.term = p.term
  active : q.active = p.active

/-- Results that differ at most in the same way. -/
def AlikeKeys (Q : Rel σ σ') (r : Except Fault (Proc σ τ × Option Exn)) (r' : Except Fault (Proc σ' τ × Option Exn)) : Prop :=
  (∃ f, r = .error f ∧ r' = .error f) ∨ ∃ p q x, r = .ok (p, x) ∧ r' = .ok (q, x) ∧ LikeProc Q p q

/-- Streams in the same style. -/
def IoLike (Q : Rel σ σ') (a b : Io) : Prop := b.style = a.style ∧ Q.out a.out b.out

theorem io_put {a b : Io} (h : IoLike Q a b) (s : Str) : IoLike Q (a.put s) (b.put s) := ⟨h.1, Q.more _ _ _ h.2⟩

theorem io_sgr {a b : Io} (h : IoLike Q a b) (n : Nat) : IoLike Q (a.sgr n) (b.sgr n) := by
  unfold Io.sgr
  rw [h.1]
  split
  · exact io_put h _
  · exact h

theorem io_force {a b : Io} (h : IoLike Q a b) : IoLike Q a.force b.force := ⟨by simp [Io.force, h.1], h.2⟩

theorem io_beforePrompt {a b : Io} (h : IoLike Q a b) : IoLike Q a.beforePrompt b.beforePrompt := by
  unfold Io.beforePrompt
  rw [h.1]
  split
  · exact io_sgr (io_sgr (io_force h) _) _
  · exact h

theorem io_beforeInput {a b : Io} (h : IoLike Q a b) : IoLike Q a.beforeInput b.beforeInput := by
  unfold Io.beforeInput
  rw [h.1]
  split
  · exact io_sgr (io_force h) _
  · exact h

theorem io_afterPrompt {a b : Io} (h : IoLike Q a b) : IoLike Q a.afterPrompt b.afterPrompt := io_sgr h _
theorem io_afterInput {a b : Io} (h : IoLike Q a b) : IoLike Q a.afterInput b.afterInput := io_sgr h _

theorem Like.io {w : World σ τ} {v : World σ' τ} (h : Like Q w v) : IoLike Q w.io v.io := by
  obtain ⟨s, o, _, ho, rfl⟩ := h; exact ⟨rfl, ho⟩

theorem like_io {w : World σ τ} {v : World σ' τ} (h : Like Q w v) {a b : Io} (hi : IoLike Q a b) : Like Q { w with io := a } { v with io := b } := by
  obtain ⟨s, o, hq, _, rfl⟩ := h
  obtain ⟨sa, oa⟩ := a; obtain ⟨sb, ob⟩ := b
  obtain ⟨h1, h2⟩ := hi
  simp only at h1
  subst h1
  exact ⟨s, ob, hq, h2, rfl⟩

theorem io_setLine (t : Terminal.Term) (s : Str) {a b : Io} (h : IoLike Q a b) : (Terminal.setLine t b s).1 = (Terminal.setLine t a s).1 ∧ IoLike Q (Terminal.setLine t a s).2 (Terminal.setLine t b s).2 := by
  unfold Terminal.setLine
  refine ⟨rfl, ?_⟩
  have k := io_afterInput (io_put (io_put (io_beforeInput h) (Terminal.rep t.pos Terminal.bs)) s)
  dsimp only
  split
  · exact io_put (io_put k _) _
  · exact k

/-- A key press has the same effect on the line, and what it writes is the same. -/
theorem io_keypressed (t : Terminal.Term) (k : Key) {a b : Io} (h : IoLike Q a b) :
    (∃ f, Terminal.keypressed t a k = .error f ∧ Terminal.keypressed t b k = .error f) ∨
    ∃ t' a' b' s, Terminal.keypressed t a k = .ok (t', a', s) ∧ Terminal.keypressed t b k = .ok (t', b', s) ∧ IoLike Q a' b' := by
  cases k with
  | eof => exact .inr ⟨_, _, _, _, rfl, rfl, h⟩
  | up => exact .inr ⟨_, _, _, _, rfl, rfl, h⟩
  | down => exact .inr ⟨_, _, _, _, rfl, rfl, h⟩
  | clear => exact .inr ⟨_, _, _, _, rfl, rfl, h⟩
  | ignored => exact .inr ⟨_, _, _, _, rfl, rfl, h⟩
  | ret => exact .inr ⟨_, _, _, _, rfl, rfl, io_put h _⟩
  | home => exact .inr ⟨_, _, _, _, rfl, rfl, io_put h _⟩
  | left =>
    simp only [Terminal.keypressed]
    split
    · exact .inr ⟨_, _, _, _, rfl, rfl, io_put h _⟩
    · exact .inr ⟨_, _, _, _, rfl, rfl, h⟩
  | right =>
    simp only [Terminal.keypressed]
    split
    · exact .inr ⟨_, _, _, _, rfl, rfl, io_afterInput (io_put (io_beforeInput h) _)⟩
    · exact .inr ⟨_, _, _, _, rfl, rfl, h⟩
  | backspace =>
    simp only [Terminal.keypressed, bind, Except.bind]
    split
    · exact .inr ⟨_, _, _, _, rfl, rfl, h⟩
    · cases Terminal.eraseAt t.line (t.pos - 1) with
      | error f => exact .inl ⟨f, rfl, rfl⟩
      | ok l =>
        simp only
        cases Terminal.suffix l (t.pos - 1) with
        | error f => exact .inl ⟨f, rfl, rfl⟩
        | ok r =>
          simp only
          cases Terminal.repSub (l.length + 1) (t.pos - 1) Terminal.bs with
          | error f => exact .inl ⟨f, rfl, rfl⟩
          | ok d => exact .inr ⟨_, _, _, _, rfl, rfl, io_put (io_put (io_put (io_put h _) _) _) _⟩
  | ascii c =>
    simp only [Terminal.keypressed, bind, Except.bind]
    split
    · exact .inr ⟨_, _, _, _, rfl, rfl, h⟩
    · cases Terminal.suffix t.line t.pos with
      | error f => exact .inl ⟨f, rfl, rfl⟩
      | ok r =>
        simp only
        cases Terminal.repSub t.line.length t.pos Terminal.bs with
        | error f => exact .inl ⟨f, rfl, rfl⟩
        | ok d =>
          simp only
          cases Terminal.insertAt t.line t.pos c with
          | error f => exact .inl ⟨f, rfl, rfl⟩
          | ok l => exact .inr ⟨_, _, _, _, rfl, rfl, io_put (io_afterInput (io_put (io_put (io_beforeInput h) _) _)) _⟩
  | canc =>
    simp only [Terminal.keypressed, bind, Except.bind]
    split
    · exact .inr ⟨_, _, _, _, rfl, rfl, h⟩
    · cases Terminal.suffix t.line (t.pos + 1) with
      | error f => exact .inl ⟨f, rfl, rfl⟩
      | ok r =>
        simp only
        cases Terminal.repSub t.line.length t.pos Terminal.bs with
        | error f => exact .inl ⟨f, rfl, rfl⟩
        | ok d =>
          simp only
          cases Terminal.eraseAt t.line t.pos with
          | error f => exact .inl ⟨f, rfl, rfl⟩
          | ok l => exact .inr ⟨_, _, _, _, rfl, rfl, io_put (io_put (io_put h _) _) _⟩
  | «end» =>
    simp only [Terminal.keypressed, bind, Except.bind]
    cases Terminal.suffix t.line t.pos with
    | error f => exact .inl ⟨f, rfl, rfl⟩
    | ok r => exact .inr ⟨_, _, _, _, rfl, rfl, io_afterInput (io_put (io_beforeInput h) _)⟩

theorem likeProc_setLine {w : World σ τ} {v : World σ' τ} (hw : Like Q w v) (t : Terminal.Term) (a : Bool) (s : Str) : LikeProc Q (Processor.setLine ⟨w, t, a⟩ s) (Processor.setLine ⟨v, t, a⟩ s) := by
  obtain ⟨h1, h2⟩ := io_setLine t s hw.io
  exact ⟨like_io hw h2, h1, rfl⟩

theorem like_prompt {w : World σ τ} {v : World σ' τ} (h : Like Q w v) : (∃ f, prompt w = .error f ∧ prompt v = .error f) ∨ ∃ w' v', prompt w = .ok w' ∧ prompt v = .ok v' ∧ Like Q w' v' := by
  have he : w.exit = v.exit := by obtain ⟨s, o, _, _, rfl⟩ := h; rfl
  have ht : v.tree.locate v.current = w.tree.locate w.current := by obtain ⟨s, o, _, _, rfl⟩ := h; rfl
  unfold prompt
  by_cases hx : v.exit = true
  · rw [if_pos hx, if_pos (he.trans hx)]
    exact .inr ⟨_, _, rfl, rfl, h⟩
  · rw [if_neg hx, if_neg (by rw [he]; exact hx), ht]
    split
    · exact .inr ⟨_, _, rfl, rfl, like_io h (io_put (io_afterPrompt (io_put (io_beforePrompt h.io) _)) _)⟩
    · exact .inl ⟨_, rfl, rfl⟩

theorem like_redraw {p : Proc σ τ} {q : Proc σ' τ} (h : LikeProc Q p q) (line : Str) :
    (∃ f, Processor.redraw p line = .error f ∧ Processor.redraw q line = .error f) ∨ ∃ p' q', Processor.redraw p line = .ok p' ∧ Processor.redraw q line = .ok q' ∧ LikeProc Q p' q' := by
  simp only [Processor.redraw, bind, Except.bind]
  rcases like_prompt h.w with ⟨f, e1, e2⟩ | ⟨w', v', e1, e2, hl⟩
  · rw [e1, e2]; exact .inl ⟨f, rfl, rfl⟩
  · rw [e1, e2]
    rw [h.term, h.active]
    exact .inr ⟨_, _, rfl, rfl, likeProc_setLine hl _ _ _⟩

theorem completions_like (plat : Platform) (fuel : Nat) {w : World σ τ} {v : World σ' τ} (h : Like Q w v) (line : Str) : Completion.completions plat fuel v line = Completion.completions plat fuel w line := by
  obtain ⟨s, o, _, _, rfl⟩ := h
  rfl

/-- A key press has the same visible effect. -/
theorem alike_keypressed {L : Rel σ σ'} (hA : Sim A B Q L) (fuel : Nat) {p : Proc σ τ} {q : Proc σ' τ} (hx : Q.free p.w.log p.w.exit) (h : LikeProc Q p q) (k : Key) : AlikeKeys Q (Processor.keypressed A fuel p k) (Processor.keypressed B fuel q k) := by
  obtain ⟨w, t, a⟩ := p; obtain ⟨v, t', a'⟩ := q
  obtain ⟨hw, h2, h3⟩ := h
  simp only at hw h2 h3
  subst h2; subst h3
  simp only [Processor.keypressed, bind, Except.bind]
  rcases io_keypressed t' k hw.io with ⟨f, e1, e2⟩ | ⟨t, a, b, s, e1, e2, hio⟩
  · rw [e1, e2]; exact .inl ⟨f, rfl, rfl⟩
  · rw [e1, e2]
    simp only
    have hl : Like Q { w with io := a } { v with io := b } := like_io hw hio
    obtain ⟨w1, hw1⟩ : ∃ w1, w1 = { w with io := a } := ⟨_, rfl⟩
    obtain ⟨v1, hv1⟩ : ∃ v1, v1 = { v with io := b } := ⟨_, rfl⟩
    have hx1 : Q.free w1.log w1.exit := by rw [hw1]; exact hx
    rw [← hw1, ← hv1] at hl ⊢
    have hh : v1.hist = w1.hist := by obtain ⟨s, o, _, _, rfl⟩ := hl; rfl
    cases s with
    | nothing => exact .inr ⟨_, _, _, rfl, rfl, hl, rfl, rfl⟩
    | eof =>
      simp only [Processor.newCommand, bind, Except.bind]
      have k := alike_exit hA hx1 hl
      revert k
      generalize exitSession A w1 = r; generalize exitSession B v1 = r'
      intro k
      cases k with
      | error f => exact .inl ⟨f, rfl, rfl⟩
      | ok o h => exact .inr ⟨_, _, _, rfl, rfl, h, rfl, rfl⟩
    | command c =>
      simp only [Processor.newCommand, bind, Except.bind]
      have k := alike_feed hA fuel c hx1 hl
      revert k
      generalize feed A fuel c w1 = r; generalize feed B fuel c v1 = r'
      intro k
      cases k with
      | error f => exact .inl ⟨f, rfl, rfl⟩
      | @ok w2 v2 o h =>
        cases o with
        | some e => exact .inr ⟨_, _, _, rfl, rfl, h, rfl, rfl⟩
        | none =>
          simp only
          rcases like_prompt h with ⟨f, e1, e2⟩ | ⟨w', v', e1, e2, hl⟩
          · rw [e1, e2]; exact .inl ⟨f, rfl, rfl⟩
          · rw [e1, e2]; exact .inr ⟨_, _, _, rfl, rfl, hl, rfl, rfl⟩
    | down =>
      simp only [Processor.newCommand, bind, Except.bind, hh]
      cases History.next w1.hist with
      | error f => exact .inl ⟨f, rfl, rfl⟩
      | ok r => exact .inr ⟨_, _, _, rfl, rfl, likeProc_setLine (like_hist hl _) _ _ _⟩
    | up =>
      simp only [Processor.newCommand, bind, Except.bind, hh]
      cases History.previous w1.hist t.line with
      | error f => exact .inl ⟨f, rfl, rfl⟩
      | ok r => exact .inr ⟨_, _, _, rfl, rfl, likeProc_setLine (like_hist hl _) _ _ _⟩
    | tab =>
      simp only [Processor.newCommand, Processor.tab, bind, Except.bind, completions_like A.plat fuel hl, hA.plat]
      cases Completion.completions A.plat fuel w1 t.line with
      | error f => exact .inl ⟨f, rfl, rfl⟩
      | ok cs =>
        match cs with
        | [] => exact .inr ⟨_, _, _, rfl, rfl, hl, rfl, rfl⟩
        | [c] => exact .inr ⟨_, _, _, rfl, rfl, likeProc_setLine hl _ _ _⟩
        | c :: d :: cs =>
          simp only
          cases Completion.commonPrefix (c :: d :: cs) with
          | error f => exact .inl ⟨f, rfl, rfl⟩
          | ok pre =>
            simp only
            by_cases hp : pre.length > t.line.length
            · rw [if_pos hp, if_pos hp]
              exact .inr ⟨_, _, _, rfl, rfl, likeProc_setLine hl _ _ _⟩
            · rw [if_neg hp, if_neg hp]
              rcases like_redraw (p := ⟨(w1.put bs!"\n").put (Processor.items (c :: d :: cs) ++ bs!"\n"), t, a'⟩) (q := ⟨(v1.put bs!"\n").put (Processor.items (c :: d :: cs) ++ bs!"\n"), t, a'⟩)
                ⟨like_put (like_put hl _) _, rfl, rfl⟩ t.line with ⟨f, e1, e2⟩ | ⟨p', q', e1, e2, hp⟩
              · rw [e1, e2]; exact .inl ⟨f, rfl, rfl⟩
              · rw [e1, e2]; exact .inr ⟨_, _, _, rfl, rfl, hp⟩
    | clear =>
      simp only [Processor.newCommand, bind, Except.bind]
      rcases like_redraw (p := ⟨w1.put Processor.clearScreen, t, a'⟩) (q := ⟨v1.put Processor.clearScreen, t, a'⟩) ⟨like_put hl _, rfl, rfl⟩ t.line with ⟨f, e1, e2⟩ | ⟨p', q', e1, e2, hp⟩
      · rw [e1, e2]; exact .inl ⟨f, rfl, rfl⟩
      · rw [e1, e2]; exact .inr ⟨_, _, _, rfl, rfl, hp⟩

end Verif.Transfer
