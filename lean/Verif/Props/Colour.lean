import Verif.Proofs.Hue
import Verif.Spec.Colour
import Verif.Props.Sample

set_option linter.unusedSimpArgs false

/-!
# Property C97: colours
-/

namespace Verif.Props
open Verif.Spec Verif.Terminal Verif.Processor

variable {σ τ : Type}

/-- No colours, on a stream that is no terminal. -/
def colourless : Style := ⟨false, false, false⟩

/-- The second stream got what the first one got, and colour codes; nothing is left in colour. -/
def Tinted (a b : Io) : Prop := a.style = colourless ∧ ∃ ps, textOf ps = a.out ∧ painted ps = b.out ∧ Calm ps

theorem painted_append (ps qs : List Piece) : painted (ps ++ qs) = painted ps ++ painted qs := by simp [painted]
theorem textOf_append (ps qs : List Piece) : textOf (ps ++ qs) = textOf ps ++ textOf qs := by simp [textOf]

theorem calm_text {ps : List Piece} (h : Calm ps) (s : Str) : Calm (ps ++ [.inl s]) := by
  unfold Calm at *
  simpa using h

theorem calm_reset (ps : List Piece) : Calm (ps ++ [.inr .reset]) := by
  unfold Calm
  intro i hi
  simp at hi
  exact hi.symm

theorem keeps_tinted : Keeps Tinted where
  put := by
    rintro a b s ⟨h1, ps, h2, h3, h4⟩
    exact ⟨h1, ps ++ [.inl s], by simp [textOf, ← h2, Io.put], by simp [painted, ← h3, Io.put], calm_text h4 s⟩
  color := by
    rintro a b on ⟨h1, ps, h2, h3, h4⟩
    exact ⟨h1, ps, h2, h3, h4⟩

theorem sgr_off {a : Io} (h : a.style = colourless) (n : Nat) : a.sgr n = a := by simp [Io.sgr, h, colourless]

/-- Text between a code and the reset. -/
theorem tinted_input {a b : Io} (s : Str) (h : Tinted a b) : Tinted (a.beforeInput.put s).afterInput (b.beforeInput.put s).afterInput := by
  obtain ⟨h1, ps, h2, h3, h4⟩ := h
  have ha : (a.beforeInput.put s).afterInput = a.put s := by
    have : a.beforeInput = a := by simp [Io.beforeInput, h1, colourless]
    rw [this]; exact sgr_off (a := a.put s) h1 0
  rw [ha]
  have e97 : decimal 97 = bs!"97" := by simp [decimal]
  have e0 : decimal 0 = bs!"0" := by simp [decimal]
  refine ⟨h1, ?_⟩
  obtain ⟨⟨c, t, f⟩, o⟩ := b
  simp only at h3
  cases c with
  | true => exact ⟨ps ++ [.inr .gray] ++ [.inl s] ++ [.inr .reset], by simp [textOf, ← h2, Io.put],
      by simp [painted, ← h3, Io.put, Io.beforeInput, Io.afterInput, Io.sgr, Io.force, Ink.code, e97, e0], calm_reset _⟩
  | false =>
    cases hf : (f || t) with
    | true => exact ⟨ps ++ [.inl s] ++ [.inr .reset], by simp [textOf, ← h2, Io.put],
        by simp [painted, ← h3, Io.put, Io.beforeInput, Io.afterInput, Io.sgr, Io.force, Ink.code, e0, hf], calm_reset _⟩
    | false => exact ⟨ps ++ [.inl s], by simp [textOf, ← h2, Io.put],
        by simp [painted, ← h3, Io.put, Io.beforeInput, Io.afterInput, Io.sgr, Io.force, Ink.code, e0, hf], calm_text h4 _⟩

theorem tinted_prompt {a b : Io} (s : Str) (h : Tinted a b) : Tinted (a.beforePrompt.put s).afterPrompt (b.beforePrompt.put s).afterPrompt := by
  obtain ⟨h1, ps, h2, h3, h4⟩ := h
  have ha : (a.beforePrompt.put s).afterPrompt = a.put s := by
    have : a.beforePrompt = a := by simp [Io.beforePrompt, h1, colourless]
    rw [this]; exact sgr_off (a := a.put s) h1 0
  rw [ha]
  have e32 : decimal 32 = bs!"32" := by simp [decimal]
  have e1 : decimal 1 = bs!"1" := by simp [decimal]
  have e0 : decimal 0 = bs!"0" := by simp [decimal]
  refine ⟨h1, ?_⟩
  obtain ⟨⟨c, t, f⟩, o⟩ := b
  simp only at h3
  cases c with
  | true => exact ⟨ps ++ [.inr .green, .inr .bold] ++ [.inl s] ++ [.inr .reset], by simp [textOf, ← h2, Io.put],
      by simp [painted, ← h3, Io.put, Io.beforePrompt, Io.afterPrompt, Io.sgr, Io.force, Ink.code, e32, e1, e0], calm_reset _⟩
  | false =>
    cases hf : (f || t) with
    | true => exact ⟨ps ++ [.inl s] ++ [.inr .reset], by simp [textOf, ← h2, Io.put],
        by simp [painted, ← h3, Io.put, Io.beforePrompt, Io.afterPrompt, Io.sgr, Io.force, Ink.code, e0, hf], calm_reset _⟩
    | false => exact ⟨ps ++ [.inl s], by simp [textOf, ← h2, Io.put],
        by simp [painted, ← h3, Io.put, Io.beforePrompt, Io.afterPrompt, Io.sgr, Io.force, Ink.code, e0, hf], calm_text h4 _⟩

/-- The prompt. -/
theorem hue_prompt {w v : World σ τ} (h : Hue Tinted w v) : (∃ f, prompt w = .error f ∧ prompt v = .error f) ∨ ∃ w' v', prompt w = .ok w' ∧ prompt v = .ok v' ∧ Hue Tinted w' v' := by
  obtain ⟨io, hr, rfl⟩ := h
  unfold prompt
  simp only
  split
  · exact .inr ⟨_, _, rfl, rfl, io, hr, rfl⟩
  · split
    · exact .inr ⟨_, _, rfl, rfl, _, keeps_tinted.put _ (tinted_prompt _ hr), rfl⟩
    · exact .inl ⟨_, rfl, rfl⟩

theorem io_put_put (io : Io) (s t : Str) : (io.put s).put t = io.put (s ++ t) := by simp [Io.put]

theorem tinted_setLine (t : Term) {a b : Io} (s : Str) (h : Tinted a b) :
    (Terminal.setLine t a s).1 = (Terminal.setLine t b s).1 ∧ Tinted (Terminal.setLine t a s).2 (Terminal.setLine t b s).2 := by
  refine ⟨rfl, ?_⟩
  have k := tinted_input (rep t.pos bs ++ s) h
  simp only [Terminal.setLine, io_put_put]
  split
  · exact keeps_tinted.put _ k
  · exact k

theorem tinted_key (t : Term) {a b : Io} (k : Key) (h : Tinted a b) : (∃ f, Terminal.keypressed t a k = .error f ∧ Terminal.keypressed t b k = .error f) ∨
    ∃ t' a' b' s, Terminal.keypressed t a k = .ok (t', a', s) ∧ Terminal.keypressed t b k = .ok (t', b', s) ∧ Tinted a' b' := by
  have kp := fun s => keeps_tinted.put s h
  have ki := fun s => tinted_input s h
  cases k <;> simp only [Terminal.keypressed, bind, Except.bind, io_put_put]
  case ascii c =>
    split
    · exact .inr ⟨_, _, _, _, rfl, rfl, h⟩
    · cases Terminal.suffix t.line t.pos with
      | error f => exact .inl ⟨f, rfl, rfl⟩
      | ok rest =>
        cases Terminal.repSub t.line.length t.pos bs with
        | error f => exact .inl ⟨f, rfl, rfl⟩
        | ok back =>
          cases Terminal.insertAt t.line t.pos c with
          | error f => exact .inl ⟨f, rfl, rfl⟩
          | ok line => exact .inr ⟨_, _, _, _, rfl, rfl, keeps_tinted.put _ (ki _)⟩
  case backspace =>
    split
    · exact .inr ⟨_, _, _, _, rfl, rfl, h⟩
    · cases Terminal.eraseAt t.line (t.pos - 1) with
      | error f => exact .inl ⟨f, rfl, rfl⟩
      | ok line =>
        simp only
        cases Terminal.suffix line (t.pos - 1) with
        | error f => exact .inl ⟨f, rfl, rfl⟩
        | ok rest =>
          simp only
          cases Terminal.repSub (line.length + 1) (t.pos - 1) bs with
          | error f => exact .inl ⟨f, rfl, rfl⟩
          | ok back => exact .inr ⟨_, _, _, _, rfl, rfl, kp _⟩
  case canc =>
    split
    · exact .inr ⟨_, _, _, _, rfl, rfl, h⟩
    · cases Terminal.suffix t.line (t.pos + 1) with
      | error f => exact .inl ⟨f, rfl, rfl⟩
      | ok rest =>
        cases Terminal.repSub t.line.length t.pos bs with
        | error f => exact .inl ⟨f, rfl, rfl⟩
        | ok back =>
          cases Terminal.eraseAt t.line t.pos with
          | error f => exact .inl ⟨f, rfl, rfl⟩
          | ok line => exact .inr ⟨_, _, _, _, rfl, rfl, kp _⟩
  case «end» =>
    cases Terminal.suffix t.line t.pos with
    | error f => exact .inl ⟨f, rfl, rfl⟩
    | ok rest => exact .inr ⟨_, _, _, _, rfl, rfl, ki _⟩
  case left => split <;> exact .inr ⟨_, _, _, _, rfl, rfl, by first | exact kp _ | exact h⟩
  case right => split <;> exact .inr ⟨_, _, _, _, rfl, rfl, by first | exact ki _ | exact h⟩
  case ret => exact .inr ⟨_, _, _, _, rfl, rfl, kp _⟩
  case home => exact .inr ⟨_, _, _, _, rfl, rfl, kp _⟩
  all_goals exact .inr ⟨_, _, _, _, rfl, rfl, h⟩

/-- The same, but for the streams. -/
structure HueP (p q : Proc σ τ) : Prop where
  w : Hue Tinted p.w q.w
  term : q.term = p.term
  active : q.active = p.active

theorem hue_setLine {p q : Proc σ τ} (h : HueP p q) (s : Str) : HueP (setLine p s) (setLine q s) := by
  obtain ⟨w, t, ac⟩ := p; obtain ⟨v, t', ac'⟩ := q
  obtain ⟨⟨io, hr, rfl⟩, h2, h3⟩ := h
  simp only at h2 h3 hr; subst h2; subst h3
  exact ⟨⟨_, (tinted_setLine _ s hr).2, rfl⟩, rfl, rfl⟩

theorem hue_redraw {p q : Proc σ τ} (h : HueP p q) (line : Str) : (∃ f, redraw p line = .error f ∧ redraw q line = .error f) ∨ ∃ p' q', redraw p line = .ok p' ∧ redraw q line = .ok q' ∧ HueP p' q' := by
  unfold redraw
  rcases hue_prompt h.w with ⟨f, h1, h2⟩ | ⟨w', v', h1, h2, h3⟩
  · exact .inl ⟨f, by rw [h1]; rfl, by rw [h2]; rfl⟩
  · have k : HueP ({ p with w := w', term := Terminal.resetCursor p.term } : Proc σ τ) { q with w := v', term := Terminal.resetCursor q.term } := ⟨h3, by simp only [h.term], h.active⟩
    exact .inr ⟨_, _, by rw [h1]; rfl, by rw [h2]; rfl, hue_setLine k line⟩

theorem hue_tab (A : App σ τ) (fuel : Nat) {p q : Proc σ τ} (h : HueP p q) :
    (∃ f, tab A.mute fuel p = .error f ∧ tab A fuel q = .error f) ∨ ∃ p' q', tab A.mute fuel p = .ok p' ∧ tab A fuel q = .ok q' ∧ HueP p' q' := by
  obtain ⟨w, t, ac⟩ := p; obtain ⟨v, t', ac'⟩ := q
  obtain ⟨hw, h2, h3⟩ := h
  simp only at h2 h3 hw; subst h2; subst h3
  unfold tab
  have hc : Completion.completions A.mute.plat fuel w t'.line = Completion.completions A.plat fuel v t'.line := by
    obtain ⟨io, hr, hv⟩ := hw
    rw [hv]
    rfl
  simp only [bind, Except.bind, hc]
  cases Completion.completions A.plat fuel v t'.line with
  | error f => exact .inl ⟨f, rfl, rfl⟩
  | ok cs =>
    match cs with
    | [] => exact .inr ⟨_, _, rfl, rfl, ⟨hw, rfl, rfl⟩⟩
    | [c] => exact .inr ⟨_, _, rfl, rfl, hue_setLine (p := ⟨w, t', ac'⟩) (q := ⟨v, t', ac'⟩) ⟨hw, rfl, rfl⟩ _⟩
    | c :: d :: cs =>
      simp only
      cases Completion.commonPrefix (c :: d :: cs) with
      | error f => exact .inl ⟨f, rfl, rfl⟩
      | ok pre =>
        simp only
        split
        · exact .inr ⟨_, _, rfl, rfl, hue_setLine (p := ⟨w, t', ac'⟩) (q := ⟨v, t', ac'⟩) ⟨hw, rfl, rfl⟩ _⟩
        · exact hue_redraw (p := ⟨_, t', ac'⟩) (q := ⟨_, t', ac'⟩) ⟨hue_put keeps_tinted (hue_put keeps_tinted hw _) _, rfl, rfl⟩ _

/-- Results that differ at most in the streams. -/
def TintedRun (r r' : Except Fault (Proc σ τ × Option Exn)) : Prop :=
  (∃ f, r = .error f ∧ r' = .error f) ∨ ∃ p q x, r = .ok (p, x) ∧ r' = .ok (q, x) ∧ HueP p q

theorem hue_newCommand (A : App σ τ) (fuel : Nat) {p q : Proc σ τ} (h : HueP p q) (s : Symbol) : TintedRun (newCommand A.mute fuel p s) (newCommand A fuel q s) := by
  obtain ⟨w, t, ac⟩ := p; obtain ⟨v, t', ac'⟩ := q
  obtain ⟨hw, h2, h3⟩ := h
  simp only at h2 h3 hw; subst h2; subst h3
  have hh : v.hist = w.hist := by obtain ⟨io, _, hv⟩ := hw; rw [hv]
  cases s with
  | nothing => exact .inr ⟨_, _, none, rfl, rfl, ⟨hw, rfl, rfl⟩⟩
  | eof =>
    have k := dyed_exit keeps_tinted A hw
    simp only [newCommand, bind, Except.bind]
    revert k
    generalize exitSession A.mute w = r
    generalize exitSession A v = r'
    intro k
    cases k with
    | error f => exact .inl ⟨f, rfl, rfl⟩
    | @ok w' v' o hw => exact .inr ⟨⟨w', t', ac'⟩, ⟨v', t', ac'⟩, o, rfl, rfl, ⟨hw, rfl, rfl⟩⟩
  | command s =>
    have k := dyed_feed keeps_tinted A fuel s hw
    simp only [newCommand, bind, Except.bind]
    revert k
    generalize feed A.mute fuel s w = r
    generalize feed A fuel s v = r'
    intro k
    cases k with
    | error f => exact .inl ⟨f, rfl, rfl⟩
    | @ok w v o hw =>
      cases o with
      | some e => exact .inr ⟨⟨w, t', false⟩, ⟨v, t', false⟩, some e, rfl, rfl, ⟨hw, rfl, rfl⟩⟩
      | none =>
        simp only
        rcases hue_prompt hw with ⟨f, h1, h2⟩ | ⟨w', v', h1, h2, h3⟩
        · exact .inl ⟨f, by rw [h1], by rw [h2]⟩
        · exact .inr ⟨⟨w', t', true⟩, ⟨v', t', true⟩, none, by rw [h1], by rw [h2], ⟨h3, rfl, rfl⟩⟩
  | down =>
    simp only [newCommand, bind, Except.bind, hh]
    cases History.next w.hist with
    | error f => exact .inl ⟨f, rfl, rfl⟩
    | ok r => exact .inr ⟨_, _, none, rfl, rfl, hue_setLine (p := ⟨_, t', ac'⟩) (q := ⟨_, t', ac'⟩) ⟨hue_hist hw _, rfl, rfl⟩ _⟩
  | up =>
    simp only [newCommand, bind, Except.bind, hh]
    cases History.previous w.hist t'.line with
    | error f => exact .inl ⟨f, rfl, rfl⟩
    | ok r => exact .inr ⟨_, _, none, rfl, rfl, hue_setLine (p := ⟨_, t', ac'⟩) (q := ⟨_, t', ac'⟩) ⟨hue_hist hw _, rfl, rfl⟩ _⟩
  | tab =>
    simp only [newCommand, bind, Except.bind]
    rcases hue_tab A fuel (p := ⟨w, t', ac'⟩) (q := ⟨v, t', ac'⟩) ⟨hw, rfl, rfl⟩ with ⟨f, h1, h2⟩ | ⟨p', q', h1, h2, h3⟩
    · exact .inl ⟨f, by rw [h1], by rw [h2]⟩
    · exact .inr ⟨p', q', none, by rw [h1], by rw [h2], h3⟩
  | clear =>
    simp only [newCommand, bind, Except.bind]
    rcases hue_redraw (p := ⟨w.put clearScreen, t', ac'⟩) (q := ⟨v.put clearScreen, t', ac'⟩) ⟨hue_put keeps_tinted hw _, rfl, rfl⟩ t'.line with ⟨f, h1, h2⟩ | ⟨p', q', h1, h2, h3⟩
    · exact .inl ⟨f, by rw [h1], by rw [h2]⟩
    · exact .inr ⟨p', q', none, by rw [h1], by rw [h2], h3⟩

theorem hue_key (A : App σ τ) (fuel : Nat) {p q : Proc σ τ} (h : HueP p q) (k : Key) : TintedRun (Processor.keypressed A.mute fuel p k) (Processor.keypressed A fuel q k) := by
  obtain ⟨w, t, ac⟩ := p; obtain ⟨v, t', ac'⟩ := q
  obtain ⟨⟨io, hr, hv⟩, h2, h3⟩ := h
  simp only at h2 h3 hr hv; subst h2; subst h3; subst hv
  unfold Processor.keypressed
  simp only [bind, Except.bind]
  rcases tinted_key t' k hr with ⟨f, h1, h2⟩ | ⟨t2, a', b', s, h1, h2, h3⟩
  · exact .inl ⟨f, by rw [h1], by rw [h2]⟩
  · rw [h1, h2]
    exact hue_newCommand A fuel (p := ⟨{ w with io := a' }, t2, ac'⟩) (q := ⟨{ w with io := b' }, t2, ac'⟩) ⟨⟨b', h3, rfl⟩, rfl, rfl⟩ s

theorem hue_run (A : App σ τ) (fuel : Nat) (ks : List Key) : ∀ {p q : Proc σ τ}, HueP p q → TintedRun (Processor.run A.mute fuel ks p) (Processor.run A fuel ks q) := by
  induction ks with
  | nil => intro p q h; exact .inr ⟨p, q, none, rfl, rfl, h⟩
  | cons k ks ih =>
    intro p q h
    simp only [Processor.run, bind, Except.bind]
    rcases hue_key A fuel h k with ⟨f, h1, h2⟩ | ⟨p', q', x, h1, h2, h3⟩
    · exact .inl ⟨f, by rw [h1], by rw [h2]⟩
    · rw [h1, h2]
      cases x with
      | some e => exact .inr ⟨p', q', some e, rfl, rfl, h3⟩
      | none => exact ih h3

/-! ### C97 -/

/-- **C97** Whatever keys are pressed and whatever the application does (it may call `SetColor` and `SetNoColor` at any time): what happens is the same as without colours, on a stream that is no terminal, except that there
    are colour codes in the output; and after every key press the last of them is the one for reset. -/
theorem C97_codes_only (A : App σ τ) (fuel : Nat) (ks : List Key) (w : World σ τ) (t : Term) (ac : Bool) (style : Style) :
    (∃ f, Processor.run A.mute fuel ks ⟨{ w with io := ⟨colourless, []⟩ }, t, ac⟩ = .error f ∧ Processor.run A fuel ks ⟨{ w with io := ⟨style, []⟩ }, t, ac⟩ = .error f) ∨
    ∃ (w' : World σ τ) (io : Io) (t' : Term) (ac' : Bool) (x : Option Exn) (ps : List Piece), Processor.run A.mute fuel ks ⟨{ w with io := ⟨colourless, []⟩ }, t, ac⟩ = .ok (⟨w', t', ac'⟩, x) ∧
      Processor.run A fuel ks ⟨{ w with io := ⟨style, []⟩ }, t, ac⟩ = .ok (⟨{ w' with io := io }, t', ac'⟩, x) ∧
      textOf ps = w'.io.out ∧ painted ps = io.out ∧ Calm ps := by
  have h0 : HueP (⟨{ w with io := ⟨colourless, []⟩ }, t, ac⟩ : Proc σ τ) ⟨{ w with io := ⟨style, []⟩ }, t, ac⟩ :=
    ⟨⟨⟨style, []⟩, ⟨rfl, [], rfl, rfl, by simp [Calm]⟩, rfl⟩, rfl, rfl⟩
  rcases hue_run A fuel ks h0 with h | ⟨p, q, x, h1, h2, h3⟩
  · exact .inl h
  · obtain ⟨w', t', ac'⟩ := p; obtain ⟨v, t2, ac2⟩ := q
    obtain ⟨⟨io, ⟨_, ps, e1, e2, e3⟩, hv⟩, e4, e5⟩ := h3
    simp only at hv e1 e2 e4 e5
    subst hv; subst e4; subst e5
    exact .inr ⟨w', io, t2, ac2, x, ps, h1, h2, e1, e2, e3⟩

/-- **C97** Two sessions with the same keys and any colour settings show the same text and do the same. -/
theorem C97_same_text (A : App σ τ) (fuel : Nat) (ks : List Key) (w : World σ τ) (t : Term) (ac : Bool) (s1 s2 : Style) (p : Proc σ τ) (x : Option Exn)
    (h : Processor.run A fuel ks ⟨{ w with io := ⟨s1, []⟩ }, t, ac⟩ = .ok (p, x)) :
    ∃ (io : Io) (ps qs : List Piece), Processor.run A fuel ks ⟨{ w with io := ⟨s2, []⟩ }, t, ac⟩ = .ok ({ p with w := { p.w with io := io } }, x) ∧
      painted ps = p.w.io.out ∧ painted qs = io.out ∧ textOf ps = textOf qs := by
  rcases C97_codes_only A fuel ks w t ac s1 with ⟨f, _, h2⟩ | ⟨w1, io1, t1, a1, x1, ps, h1, h2, h3, h4, _⟩
  · rw [h2] at h; cases h
  · rcases C97_codes_only A fuel ks w t ac s2 with ⟨f, g1, _⟩ | ⟨w2, io2, t2, a2, x2, qs, g1, g2, g3, g4, _⟩
    · rw [g1] at h1; cases h1
    · rw [h1] at g1; cases g1
      rw [h2] at h; cases h
      exact ⟨io2, ps, qs, g2, h4, g4, by rw [h3, g3]⟩

/-- The prompt of a session in colour. -/
example : (prompt { Sample.world with io := ⟨⟨true, false, false⟩, []⟩ }).map (fun w => w.io.out) = .ok (27 :: bs!"[32m" ++ 27 :: bs!"[1mcli" ++ 27 :: bs!"[0m> ") := by simp [prompt, Sample.world, Io.beforePrompt, Io.afterPrompt, Io.sgr, Io.force, Io.put, decimal, Except.map]; rfl

/-- A line is typed and entered in colour. -/
example : ∃ p, Processor.run Sample.app 3 [.ascii b%'a', .ret] ⟨{ Sample.world with io := ⟨⟨true, false, false⟩, []⟩ }, ⟨[], 0⟩, true⟩ = .ok (p, none) := ⟨_, rfl⟩

/-- Both streams got the same since. -/
def Grown (x y : Str) (a b : Io) : Prop := ∃ s, a.out = x ++ s ∧ b.out = y ++ s

theorem keeps_grown (x y : Str) : Keeps (Grown x y) where
  put := by rintro a b s ⟨t, h1, h2⟩; exact ⟨t ++ s, by simp [Io.put, h1], by simp [Io.put, h2]⟩
  color := by rintro a b on h; exact h

/-- **C97** While a line is being executed, no colour codes are written: what is written does not depend on colours at all. -/
theorem C97_commands (A : App σ τ) (fuel : Nat) (line : Str) (w w' : World σ τ) (x : Option Exn) (h : feed A fuel line w = .ok (w', x)) :
    ∃ s, w'.io.out = w.io.out ++ s ∧ ∃ v, feed A.mute fuel line { w with io := ⟨colourless, []⟩ } = .ok (v, x) ∧ v.io.out = s := by
  have h0 : Hue (Grown [] w.io.out) { w with io := ⟨colourless, []⟩ } w := ⟨w.io, ⟨[], rfl, by simp⟩, rfl⟩
  have k := dyed_feed (keeps_grown [] w.io.out) A fuel line h0
  rw [h] at k
  revert k
  generalize feed A.mute fuel line { w with io := ⟨colourless, []⟩ } = r
  intro k
  cases k with
  | @ok v w2 o hw =>
    obtain ⟨io, ⟨s, h1, h2⟩, rfl⟩ := hw
    exact ⟨s, h2, v, rfl, by simpa using h1⟩

/-- **C97** The prompt in colour. -/
theorem C97_prompt (w w' : World σ τ) (h : prompt w = .ok w') (he : w.exit = false) : ∃ m kids anc, w.tree.locate w.current = some ((m, kids) :: anc) ∧
    w'.io.out = w.io.out ++ painted ((if w.io.style.color then [.inr .green, .inr .bold] else []) ++ [.inl m.prompt] ++
      (if w.io.style.color || w.io.style.forced || w.io.style.tty then [.inr .reset] else []) ++ [.inl bs!"> "]) := by
  have e32 : decimal 32 = bs!"32" := by simp [decimal]
  have e1 : decimal 1 = bs!"1" := by simp [decimal]
  have e0 : decimal 0 = bs!"0" := by simp [decimal]
  unfold prompt at h
  rw [he] at h
  simp only [Bool.false_eq_true, if_false] at h
  split at h
  · rename_i m kids anc hl
    injection h with h
    subst h
    refine ⟨m, kids, anc, hl, ?_⟩
    rcases hio : w.io with ⟨⟨c, t, f⟩, o⟩
    simp only
    cases c <;> cases t <;> cases f <;> simp [painted, Io.put, Io.beforePrompt, Io.afterPrompt, Io.sgr, Io.force, Ink.code, e32, e1, e0]
  · cases h

/-- **C97** `SetColor` and `SetNoColor` take effect with the next prompt. -/
theorem C97_switched (on : Bool) (w w' : World σ τ) (h : prompt (w.act (.color on)) = .ok w') (he : w.exit = false) : ∃ m kids anc, w.tree.locate w.current = some ((m, kids) :: anc) ∧
    w'.io.out = w.io.out ++ painted ((if on then [.inr .green, .inr .bold] else []) ++ [.inl m.prompt] ++ (if on || w.io.style.forced || w.io.style.tty then [.inr .reset] else []) ++ [.inl bs!"> "]) :=
  C97_prompt _ _ h he

/-- **C97 refuted** Once colours have been on, `SetNoColor` does not stop the codes: every prompt after it still writes one, in every state. -/
theorem C97_off_refuted (w w1 w2 : World σ τ) (he : w.exit = false) (hc : w.io.style.color = true) (h1 : prompt w = .ok w1) (h2 : prompt (w1.act (.color false)) = .ok w2) :
    ∃ s, w2.io.out = w1.io.out ++ s ++ Ink.reset.code ++ bs!"> " := by
  have hf : w1.io.style.forced = true ∧ w1.exit = false := by
    unfold prompt at h1
    rw [he] at h1
    simp only [Bool.false_eq_true, if_false] at h1
    split at h1
    · injection h1 with h1
      subst h1
      rcases hio : w.io with ⟨⟨c, t, f⟩, o⟩
      rw [hio] at hc
      simp only at hc; subst hc
      simp [Io.put, Io.beforePrompt, Io.afterPrompt, Io.sgr, Io.force, he]
    · cases h1
  obtain ⟨m, kids, anc, _, h⟩ := C97_prompt _ _ h2 (by simpa [World.act] using hf.2)
  refine ⟨m.prompt, ?_⟩
  rw [h]
  simp [World.act, hf.1, painted]

/-- **C97 refuted** On a terminal a code is written after every prompt even if colours have never been on. -/
theorem C97_terminal_refuted (w w' : World σ τ) (he : w.exit = false) (hc : w.io.style.color = false) (ht : w.io.style.tty = true) (h : prompt w = .ok w') :
    ∃ s, w'.io.out = w.io.out ++ s ++ Ink.reset.code ++ bs!"> " := by
  obtain ⟨m, kids, anc, _, h⟩ := C97_prompt _ _ h he
  refine ⟨m.prompt, ?_⟩
  rw [h]
  simp [hc, ht, painted]

end Verif.Props
