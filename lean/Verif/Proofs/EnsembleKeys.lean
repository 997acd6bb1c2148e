import Verif.Spec.Ensemble
import Verif.Proofs.DraftSteps
import Verif.Props.Company

set_option linter.unusedSimpArgs false

/-! # Keys in the program `complete`, to the byte -/

namespace Verif.Showcase.Ensemble
open Spec Props Processor
open Terminal (Key)
open Script (Harmless line_same)

variable {τ : Type}

/-! ### What is written -/

/-- The session stays the same except that this is written, and perhaps escape sequences are allowed. -/
structure Wrote (s s' : Seat) (t : Str) (a b : Io) : Prop where
  color : b.style.color = a.style.color
  escapes : (a.style.forced || a.style.tty) = s.escapes → a.style.color = s.colour → (b.style.forced || b.style.tty) = s'.escapes
  out : (a.style.forced || a.style.tty) = s.escapes → a.style.color = s.colour → b.out = a.out ++ t

theorem wrote_put (s : Seat) (a : Io) (t : Str) : Wrote s s t a (a.put t) := ⟨rfl, fun h _ => h, fun _ _ => rfl⟩

theorem wrote_ink (s : Seat) (a : Io) (t : Str) : Wrote s s.prompted (s.ink t) a (a.beforeInput.put t).afterInput := by
  have e97 : decimal 97 = bs!"97" := by decide +kernel
  have e0 : decimal 0 = bs!"0" := by decide +kernel
  obtain ⟨⟨col, tty, f⟩, out⟩ := a
  obtain ⟨pl, c, g, e, b⟩ := s
  refine ⟨?_, ?_, ?_⟩
  · cases col <;> cases tty <;> cases f <;> rfl
  · cases col <;> cases tty <;> cases f <;> cases c <;> cases e <;> simp [Seat.prompted, Io.beforeInput, Io.afterInput, Io.put, Io.force, Io.sgr]
  · cases col <;> cases tty <;> cases f <;> cases c <;> cases e <;> simp [Seat.prompted, Seat.ink, Io.beforeInput, Io.afterInput, Io.put, Io.force, Io.sgr, e97, e0]

theorem ink_prompted (s : Seat) (t : Str) : s.prompted.ink t = s.ink t := by
  obtain ⟨pl, c, g, e, b⟩ := s
  cases c <;> cases e <;> rfl

theorem prompted_twice' (s : Seat) : s.prompted.prompted = s.prompted := by
  obtain ⟨pl, c, g, e, b⟩ := s
  cases c <;> cases e <;> rfl

theorem wrote_trans {s s' s'' : Seat} {t u : Str} {a b c : Io} (h1 : Wrote s s' t a b) (h2 : Wrote s' s'' u b c) (hc : s'.colour = s.colour) : Wrote s s'' (t ++ u) a c := by
  refine ⟨h2.color.trans h1.color, fun e1 e2 => ?_, fun e1 e2 => ?_⟩
  · exact h2.escapes (h1.escapes e1 e2) (by rw [h1.color, hc]; exact e2)
  · rw [h2.out (h1.escapes e1 e2) (by rw [h1.color, hc]; exact e2), h1.out e1 e2, List.append_assoc]

/-- A line is replaced. -/
theorem wrote_instead (s : Seat) (a : Io) (z : Zip) (l : Str) : Wrote s s.prompted (s.instead z l) a (Terminal.setLine ⟨z.text, z.before.length⟩ a l).2 := by
  have h1 := wrote_ink s a (leftwards z.before.length ++ l)
  have h0 : ((a.beforeInput.put (Terminal.rep z.before.length Terminal.bs)).put l).afterInput = (a.beforeInput.put (leftwards z.before.length ++ l)).afterInput := by
    simp [Io.put, leftwards, Terminal.rep, Terminal.bs]
  unfold Terminal.setLine Seat.instead
  dsimp only
  rw [h0]
  by_cases hl : l.length < z.text.length
  · rw [if_pos hl]
    have h2 := wrote_trans h1 (wrote_put s.prompted _ (List.replicate (z.text.length - l.length) 32 ++ leftwards (z.text.length - l.length))) rfl
    simpa [Io.put, leftwards, Terminal.rep, Terminal.bs, List.append_assoc] using h2
  · rw [if_neg hl]
    have : z.text.length - l.length = 0 := by omega
    simpa [this, leftwards] using h1

/-! ### One key -/

/-- A session in which a line is being typed. -/
structure Drafts (d : Desk) (p : Proc St τ) : Prop where
  place : At d.seat { p.w with hist := settled p.w.hist }
  wf : History.WF p.w.hist
  looking : Looking d.back p.w.hist
  term : p.term = ⟨d.text, d.line.before.length⟩
  active : p.active = true

theorem wrote_at {s s' : Seat} {t : Str} {w : W τ} {io : Io} (h : At s w) (hw : Wrote s s' t w.io io) (hs : s' = s ∨ s' = s.prompted) : At s' { w with io := io } ∧ io.out = w.io.out ++ t := by
  have he := hw.escapes h.escapes h.color
  refine ⟨?_, hw.out h.escapes h.color⟩
  rcases hs with rfl | rfl
  · exact ⟨h.tree, h.others, h.color15, h.color16, h.current, h.exit, h.app, hw.color.trans h.color, he, h.hist, h.kept⟩
  · exact ⟨h.tree, h.others, h.color15, h.color16, h.current, h.exit, h.app, hw.color.trans h.color, he, h.hist, h.kept⟩

/-- The editor handles the key by itself. -/
theorem edited (A : App St τ) (fuel : Nat) {d : Desk} {p : Proc St τ} (ho : Drafts d p) {k : Key} {z : Zip} {s' : Seat} {io : Io} {t : Str} (hk : Terminal.keypressed ⟨d.text, d.line.before.length⟩ p.w.io k = .ok (⟨z.text, z.before.length⟩, io, .nothing))
    (hw : Wrote d.seat s' t p.w.io io) (hs : s' = d.seat ∨ s' = d.seat.prompted) :
    ∃ p', keypressed A fuel p k = .ok (p', none) ∧ Drafts ⟨s', z, d.back⟩ p' ∧ p'.w.io.out = p.w.io.out ++ t ∧ p'.w.casts = p.w.casts ∧ p'.w.storage = p.w.storage := by
  obtain ⟨h1, h2⟩ := wrote_at ho.place hw hs
  refine ⟨⟨{ p.w with io := io }, ⟨z.text, z.before.length⟩, p.active⟩, ?_, ⟨h1, ho.wf, ho.looking, rfl, ho.active⟩, h2, rfl, rfl⟩
  simp only [keypressed, ho.term, hk, bind, Except.bind, newCommand]

/-- The line is replaced, and perhaps the state of the history. -/
theorem replaced {d : Desk} {p : Proc St τ} (ho : Drafts d p) {h : History.History} {b : Book} {back : Option (Str × Nat)} (l : Str) (hw : History.WF h) (hk : Kept b (settled h)) (hl : Looking back h) :
    Drafts ⟨{ d.seat with book := b }.prompted, Zip.ofLine l, back⟩ (setLine { p with w := { p.w with hist := h } } l) ∧ (setLine { p with w := { p.w with hist := h } } l).w.io.out = p.w.io.out ++ d.seat.instead d.line l := by
  have hwr : Wrote d.seat d.seat.prompted (d.seat.instead d.line l) p.w.io (Terminal.setLine p.term p.w.io l).2 := by rw [ho.term]; exact wrote_instead _ _ _ _
  obtain ⟨h1, h2⟩ := wrote_at ho.place hwr (.inr rfl)
  refine ⟨⟨⟨h1.tree, h1.others, h1.color15, h1.color16, h1.current, h1.exit, h1.app, h1.color, h1.escapes, settled_wf hw, hk⟩, hw, hl, ?_, ho.active⟩, h2⟩
  show Terminal.Term.mk l l.length = _
  simp [Desk.text, Zip.ofLine, Zip.text]

/-- The prompt is written, whether or not the user looks through the history. -/
theorem prompt_drafts {s : Seat} {w : W τ} (ha : At s { w with hist := settled w.hist }) : ∃ io, prompt w = .ok { w with io := io } ∧ At s.prompted { w with hist := settled w.hist, io := io } ∧ io.out = w.io.out ++ s.prompt := by
  obtain ⟨w', h1, h2, h3⟩ := prompt_says ha
  obtain ⟨io, rfl, _⟩ := Processor.prompt_io h1
  refine ⟨io, ?_, h2, h3⟩
  have hx : w.exit = false := ha.exit
  unfold prompt at h1 ⊢
  simp only [hx, Bool.false_eq_true, if_false] at h1 ⊢
  split at h1
  · rename_i m k q e
    rw [← show _ = io from congrArg World.io (Except.ok.inj h1)]
  · cases h1

/-- The prompt and the line are written again. -/
theorem redrawn {d : Desk} {p : Proc St τ} (ho : Drafts d p) (text : Str) :
    ∃ q, redraw { p with w := p.w.put text } p.term.line = .ok q ∧ Drafts { d.write d.text with seat := d.seat.prompted } q ∧ q.w.io.out = p.w.io.out ++ (text ++ d.seat.prompt ++ d.seat.ink d.text) ∧ q.w.casts = p.w.casts ∧ q.w.storage = p.w.storage := by
  have ha : At d.seat { p.w.put text with hist := settled (p.w.put text).hist } := at_io ho.place _ rfl rfl
  obtain ⟨io, hp, h2, h3⟩ := prompt_drafts ha
  have hl : p.term.line = d.text := by rw [ho.term]
  have hwr : Wrote d.seat.prompted d.seat.prompted (d.seat.ink d.text) io (Terminal.setLine (Terminal.resetCursor p.term) io d.text).2 := by
    have := wrote_instead d.seat.prompted io ⟨[], d.text⟩ d.text
    rw [prompted_twice'] at this
    rw [show Terminal.resetCursor p.term = ⟨(⟨[], d.text⟩ : Zip).text, 0⟩ by rw [ho.term]; rfl]
    have e : d.seat.prompted.instead ⟨[], d.text⟩ d.text = d.seat.ink d.text := by
      simp [Seat.instead, Zip.text, leftwards, ink_prompted]
    rw [e] at this
    exact this
  obtain ⟨g1, g2⟩ := wrote_at h2 hwr (.inl rfl)
  refine ⟨setLine { p with w := { p.w.put text with io := io }, term := Terminal.resetCursor p.term } p.term.line, ?_, ?_, ?_, rfl, rfl⟩
  · simp only [redraw, hp, bind, Except.bind]
  · rw [hl]
    refine ⟨g1, ho.wf, ho.looking, ?_, ho.active⟩
    show Terminal.Term.mk d.text d.text.length = ⟨(Zip.ofLine d.text).text, (Zip.ofLine d.text).before.length⟩
    rw [text_ofLine, before_ofLine]
  · rw [hl]
    show (Terminal.setLine (Terminal.resetCursor p.term) io d.text).2.out = _
    have h3' : io.out = p.w.io.out ++ text ++ d.seat.prompt := h3
    have g2' : (Terminal.setLine (Terminal.resetCursor p.term) io d.text).2.out = io.out ++ d.seat.ink d.text := g2
    rw [g2', h3']
    simp [List.append_assoc]

/-- Tab. -/
theorem tabbed (A : App St τ) (fuel : Nat) {d : Desk} {p : Proc St τ} (hf : 2 * d.text.length + 2 ≤ fuel) (hc : A.plat.charSigned = false ∨ ∀ c ∈ d.text, c.toNat < 128) (ho : Drafts d p) :
    ∃ p' d' t, keypressed A fuel p (.ascii 9) = .ok (p', none) ∧ Pressed d (.ascii 9) d' t ∧ Drafts d' p' ∧ p'.w.io.out = p.w.io.out ++ t ∧ p'.w.casts = p.w.casts ∧ p'.w.storage = p.w.storage := by
  have hl : p.term.line = d.text := by rw [ho.term]
  have ha := ho.place
  obtain ⟨cs, hcs⟩ := C63_defined_partial A.plat p.w d.text (by rw [show p.w.tree = _ from ha.tree]; exact (tree_treeOf _).1) (by rw [show p.w.tree = _ from ha.tree, show p.w.current = _ from ha.current, locate_place]; rfl) hc fuel hf
  have hoff : d.seat.Offers d.text cs := offers ha (w := { p.w with hist := settled p.w.hist }) (p := A.plat) (fuel := fuel) hcs
  have key : ∀ q, tab A fuel p = .ok q → keypressed A fuel p (.ascii 9) = .ok (q, none) := by
    intro q hq
    simp only [keypressed, Terminal.keypressed, show ((9 : Byte) = b%'\t') = True by simp, if_true, bind, Except.bind, newCommand]
    rw [show ({ p with w := { p.w with io := p.w.io } } : Proc St τ) = p from rfl, hq]
  have wr : ∀ l, Drafts { d.write l with seat := d.seat.prompted } (setLine p l) ∧ (setLine p l).w.io.out = p.w.io.out ++ d.seat.instead d.line l := fun l => replaced (b := d.seat.book) ho l ho.wf ho.place.kept ho.looking
  match cs, hoff, hcs with
  | [], hoff, hcs =>
    have htab : tab A fuel p = .ok p := by simp only [tab, hl, hcs, bind, Except.bind]
    exact ⟨p, d, [], key _ htab, .tabNone hoff, ho, by simp, rfl, rfl⟩
  | [x], hoff, hcs =>
    have htab : tab A fuel p = .ok (setLine p (x ++ bs!" ")) := by simp only [tab, hl, hcs, bind, Except.bind]
    obtain ⟨g1, g2⟩ := wr (x ++ bs!" ")
    exact ⟨_, _, _, key _ htab, .tabOne hoff, g1, g2, rfl, rfl⟩
  | x :: y :: cs, hoff, hcs =>
    obtain ⟨pre, hpre, hp1, hp2⟩ := C38_longest_common_prefix (x :: y :: cs) (by simp)
    have htab : tab A fuel p = if pre.length > d.text.length then .ok (setLine p pre) else redraw { p with w := (p.w.put bs!"\n").put (items (x :: y :: cs) ++ bs!"\n") } d.text := by
      simp only [tab, hl, hcs, hpre, bind, Except.bind]
    by_cases hlen : pre.length > d.text.length
    · rw [if_pos hlen] at htab
      obtain ⟨g1, g2⟩ := wr pre
      exact ⟨_, _, _, key _ htab, .tabMore hoff ⟨hp1, hp2⟩ hlen, g1, g2, rfl, rfl⟩
    · rw [if_neg hlen] at htab
      obtain ⟨q, h1, h2, h3, h4, h5⟩ := redrawn ho (bs!"\n" ++ (items (x :: y :: cs) ++ bs!"\n"))
      refine ⟨q, _, _, key _ ?_, .tabList hoff ⟨hp1, hp2⟩ (by omega), h2, ?_, h4, h5⟩
      · rw [htab, ← hl, ← h1]
        simp [World.put, Io.put]
      · rw [h3]
        simp [items, List.append_assoc]

/-- **A key** other than Enter and Ctrl-D. -/
theorem pressed (E : Env) (A : App St τ) (hA : A.plat = E.p) (fuel : Nat) {d : Desk} {p : Proc St τ} (ho : Drafts d p) {k : Key} (h1 : k ≠ .ret) (h2 : k ≠ .eof) (hu : ¬ Unsaid E fuel d k) :
    ∃ p' d' t, keypressed A fuel p k = .ok (p', none) ∧ Pressed d k d' t ∧ Drafts d' p' ∧ p'.w.io.out = p.w.io.out ++ t ∧ p'.w.casts = p.w.casts ∧ p'.w.storage = p.w.storage := by
  have one : ∀ {z : Zip} {s' : Seat} {io : Io} {t : Str}, Terminal.keypressed ⟨d.text, d.line.before.length⟩ p.w.io k = .ok (⟨z.text, z.before.length⟩, io, .nothing) → Wrote d.seat s' t p.w.io io → (s' = d.seat ∨ s' = d.seat.prompted) →
      Pressed d k ⟨s', z, d.back⟩ t → ∃ p' d' t, keypressed A fuel p k = .ok (p', none) ∧ Pressed d k d' t ∧ Drafts d' p' ∧ p'.w.io.out = p.w.io.out ++ t ∧ p'.w.casts = p.w.casts ∧ p'.w.storage = p.w.storage := by
    intro z s' io t e1 e2 e3 e4
    obtain ⟨p', f1, f2⟩ := edited A fuel ho e1 e2 e3
    exact ⟨p', _, t, f1, e4, f2⟩
  obtain ⟨s, ⟨bf, af⟩, back⟩ := d
  simp only [Desk.text, Zip.text] at one hu
  cases k with
  | ret => exact absurd rfl h1
  | eof => exact absurd rfl h2
  | ascii c =>
    by_cases hc : c = 9
    · subst hc
      have hu' : ¬ (fuel < 2 * (bf.reverse ++ af).length + 2 ∨ (E.p.charSigned = true ∧ ∃ x ∈ bf.reverse ++ af, 128 ≤ x.toNat)) := fun x => hu ⟨rfl, x⟩
      refine tabbed A fuel (by simp only [Desk.text, Zip.text]; have := fun x => hu' (.inl x); omega) ?_ ho
      rw [hA]
      cases hcs : E.p.charSigned with
      | false => exact .inl rfl
      | true => exact .inr fun c hc => Nat.lt_of_not_le fun h => hu' (.inr ⟨hcs, c, hc, h⟩)
    · refine one (z := ⟨c :: bf, af⟩) (s' := s.prompted) (t := s.ink (c :: af) ++ leftwards af.length) (io := (p.w.io.beforeInput.put (c :: af)).afterInput.put (leftwards af.length)) ?_ ?_ (.inr rfl) (.char hc)
      · simp only [Terminal.keypressed, show (c = b%'\t') = False by simpa using hc, if_false, Terminal.suffix, Terminal.repSub, Terminal.insertAt, bind, Except.bind]
        simp [Zip.text, Io.put, leftwards, Terminal.rep, Terminal.bs]
      · exact wrote_trans (wrote_ink _ _ _) (wrote_put _ _ _) rfl
  | backspace =>
    cases bf with
    | nil => exact one (z := ⟨[], af⟩) (by simp [Terminal.keypressed, Zip.text]; rfl) (t := []) (by simpa [Io.put] using wrote_put s p.w.io []) (.inl rfl) (.first (.inl rfl))
    | cons x bf =>
      refine one (z := ⟨bf, af⟩) (io := p.w.io.put (leftwards 1 ++ af ++ bs!" " ++ leftwards (af.length + 1))) ?_ (wrote_put _ _ _) (.inl rfl) .backspace
      simp only [Terminal.keypressed, Terminal.eraseAt, Terminal.suffix, Terminal.repSub, bind, Except.bind]
      have e1 : (bf.reverse ++ x :: af).eraseIdx bf.length = bf.reverse ++ af := by
        rw [List.eraseIdx_append_of_length_le (by simp)]; simp
      have e2 : bf.length + af.length + 1 - bf.length = af.length + 1 := by omega
      have e3 : bf.length ≤ bf.length + af.length + 1 := by omega
      simp [Zip.text, Io.put, leftwards, Terminal.rep, Terminal.bs, e1, e2, e3, List.replicate_succ]
  | canc =>
    cases af with
    | nil => exact one (z := ⟨bf, []⟩) (by simp [Terminal.keypressed, Zip.text]; rfl) (t := []) (by simpa [Io.put] using wrote_put s p.w.io []) (.inl rfl) (.last (.inl rfl))
    | cons x af =>
      refine one (z := ⟨bf, af⟩) (io := p.w.io.put (af ++ bs!" " ++ leftwards (af.length + 1))) ?_ (wrote_put _ _ _) (.inl rfl) .canc
      have e1 : (bf.reverse ++ x :: af).eraseIdx bf.length = bf.reverse ++ af := by
        rw [List.eraseIdx_append_of_length_le (by simp)]; simp
      have e2 : (bf.reverse ++ x :: af).drop (bf.length + 1) = af := by
        rw [List.drop_append]; simp
      simp only [Terminal.keypressed, Terminal.eraseAt, Terminal.suffix, Terminal.repSub, bind, Except.bind]
      simp [Zip.text, Io.put, leftwards, Terminal.rep, Terminal.bs, e1, e2]
  | left =>
    cases bf with
    | nil => exact one (z := ⟨[], af⟩) (by simp [Terminal.keypressed, Zip.text]; rfl) (t := []) (by simpa [Io.put] using wrote_put s p.w.io []) (.inl rfl) (.first (.inr rfl))
    | cons x bf => exact one (z := ⟨bf, x :: af⟩) (by simp [Terminal.keypressed, Zip.text]; rfl) (wrote_put s p.w.io _) (.inl rfl) .left
  | right =>
    cases af with
    | nil => exact one (z := ⟨bf, []⟩) (by simp [Terminal.keypressed, Zip.text]; rfl) (t := []) (by simpa [Io.put] using wrote_put s p.w.io []) (.inl rfl) (.last (.inr rfl))
    | cons x af => exact one (z := ⟨x :: bf, af⟩) (io := (p.w.io.beforeInput.put [x]).afterInput) (by simp [Terminal.keypressed, Zip.text]) (wrote_ink s p.w.io _) (.inr rfl) .right
  | home => exact one (z := ⟨[], bf.reverse ++ af⟩) (by simp [Terminal.keypressed, Zip.text]; rfl) (wrote_put s p.w.io _) (.inl rfl) .home
  | «end» => exact one (z := Zip.ofLine (bf.reverse ++ af)) (by simp [Terminal.keypressed, Zip.text, Zip.ofLine, Terminal.suffix, bind, Except.bind, Nat.add_comm]) (wrote_ink s p.w.io _) (.inr rfl) .end
  | ignored => exact one (z := ⟨bf, af⟩) (by simp [Terminal.keypressed, Zip.text]; rfl) (t := []) (by simpa [Io.put] using wrote_put s p.w.io []) (.inl rfl) .ignored
  | up =>
    have hr : 1 ≤ s.book.room := by
      have : s.book.room ≠ 0 := fun h => hu h
      omega
    obtain ⟨h', e1, e2, e3, e4, ⟨b, e5, _⟩, l, e6⟩ := up_step (s := s) (z := ⟨bf, af⟩) ho.wf ho.place.kept ho.looking hr
    rw [e5] at e3
    obtain ⟨g1, g2⟩ := replaced ho l e2 e3 e4
    have et : (Desk.up ⟨s, ⟨bf, af⟩, back⟩).text = l := by simp only [Desk.text, e6, text_ofLine]
    rw [et] at e1
    have hl : p.term.line = (⟨bf, af⟩ : Zip).text := by rw [ho.term]; rfl
    rw [← hl] at e1
    refine ⟨setLine { p with w := { p.w with hist := h' } } l, ⟨(Desk.up ⟨s, ⟨bf, af⟩, back⟩).seat.prompted, (Desk.up ⟨s, ⟨bf, af⟩, back⟩).line, (Desk.up ⟨s, ⟨bf, af⟩, back⟩).back⟩, s.instead ⟨bf, af⟩ (Desk.up ⟨s, ⟨bf, af⟩, back⟩).text, ?_, .up, ?_, ?_, rfl, rfl⟩
    · simp only [keypressed, Terminal.keypressed, bind, Except.bind, newCommand]
      rw [show History.previous ({ p.w with io := p.w.io } : W τ).hist p.term.line = .ok (l, h') from e1]
    · rw [e5, e6]; exact g1
    · rw [et]; exact g2
  | down =>
    obtain ⟨h', e1, e2, e3, e4, e5, l, e6⟩ := down_step (s := s) (z := ⟨bf, af⟩) ho.wf ho.place.kept ho.looking
    rw [e5] at e3
    obtain ⟨g1, g2⟩ := replaced (b := s.book) ho l e2 e3 e4
    have et : (Desk.down ⟨s, ⟨bf, af⟩, back⟩).text = l := by simp only [Desk.text, e6, text_ofLine]
    rw [et] at e1
    refine ⟨setLine { p with w := { p.w with hist := h' } } l, ⟨(Desk.down ⟨s, ⟨bf, af⟩, back⟩).seat.prompted, (Desk.down ⟨s, ⟨bf, af⟩, back⟩).line, (Desk.down ⟨s, ⟨bf, af⟩, back⟩).back⟩, s.instead ⟨bf, af⟩ (Desk.down ⟨s, ⟨bf, af⟩, back⟩).text, ?_, .down, ?_, ?_, rfl, rfl⟩
    · simp only [keypressed, Terminal.keypressed, bind, Except.bind, newCommand]
      rw [show History.next ({ p.w with io := p.w.io } : W τ).hist = .ok (l, h') from e1]
    · rw [e5, e6]; exact g1
    · rw [et]; exact g2
  | clear =>
    obtain ⟨q, h1, h2, h3, h4, h5⟩ := redrawn ho wipe
    refine ⟨q, _, _, ?_, .clear, h2, h3, h4, h5⟩
    simp only [keypressed, Terminal.keypressed, bind, Except.bind, newCommand]
    rw [show clearScreen = wipe from rfl]
    rw [show ({ p.w with io := p.w.io } : W τ) = p.w from rfl, h1]

/-- Keys do not change what is shared. -/
theorem pressed_seat {d d' : Desk} {k : Key} {t : Str} (h : Pressed d k d' t) : d'.seat.colour = d.seat.colour ∧ d'.seat.gone = d.seat.gone := by
  cases h with
  | up =>
    obtain ⟨s, z, back⟩ := d
    match back with
    | none => exact ⟨rfl, rfl⟩
    | some (_, 0) => exact ⟨rfl, rfl⟩
    | some (_, k + 1) => exact ⟨rfl, rfl⟩
  | down =>
    obtain ⟨s, z, back⟩ := d
    match back with
    | none => exact ⟨rfl, rfl⟩
    | some (_, 0) => exact ⟨rfl, rfl⟩
    | some (_, k + 1) => exact ⟨rfl, rfl⟩
  | _ => exact ⟨rfl, rfl⟩

/-! ### What is in the line -/

/-- The characters of the names of commands and menus. -/
def letters : Str := bs!"abcdefghijklmnopqrstuvwxyz_.! "

theorem letters_harmless (p : Platform) {l : Str} (h : ∀ c ∈ l, c ∈ letters) : Harmless p l := by
  intro c hc
  have : ∀ c ∈ letters, c.toNat < 128 ∧ c ≠ b%'-' := by decide
  obtain ⟨h1, h2⟩ := this c (h c hc)
  refine ⟨?_, .inr h2⟩
  simp only [Platform.ctypeUB, Bool.and_eq_false_iff, decide_eq_false_iff_not]
  exact .inl (.inr (by omega))

theorem letters_line {l : Str} (h : ∀ c ∈ l, c ∈ letters) : b%'\n' ∉ l := fun hc => absurd (h _ hc) (by decide)

theorem place_letters (q : Place) : ∀ c ∈ q.name, c ∈ letters := by cases q <;> decide

theorem reads_letters {a q : Place} {l r : Str} {ws : List Str} (h : Reads a l ws q r) : ∀ w ∈ ws, ∀ c ∈ w, c ∈ letters := by
  induction h with
  | here => intro w hw; cases hw
  | down _ _ _ ih =>
    intro w hw
    rcases List.mem_cons.1 hw with rfl | hw
    · exact place_letters _
    · exact ih w hw
  | up _ ht _ _ ih =>
    intro w hw
    rcases List.mem_cons.1 hw with rfl | hw
    · rcases ht with rfl | rfl
      · exact place_letters _
      · decide
    · exact ih w hw

theorem begins_letters {s : Seat} {q : Place} {r e : Str} (h : s.Begins q r e) : ∀ c ∈ e, c ∈ letters := by
  rcases h with ⟨h, _⟩ | ⟨p, _, rfl, _⟩
  · have key : ∀ (b1 b2 : Bool) (q : Place), ∀ e ∈ Seat.names ⟨.root, b1, b2, false, ⟨0, 0, [], 0⟩⟩ q, ∀ c ∈ e, c ∈ letters := by
      intro b1 b2 q
      cases q <;> cases b1 <;> cases b2 <;> decide
    refine key s.colour s.gone q e ?_
    cases q <;> exact h
  · exact place_letters p

theorem completes_letters {s : Seat} {l c : Str} (h : s.Completes l c) : ∀ x ∈ c, x ∈ letters := by
  obtain ⟨gap, typed, _, _, ⟨h, _⟩ | ⟨ws, q, r, e, h1, h2, rfl⟩⟩ := h
  · have : ∀ c ∈ [bs!"help", bs!"exit", bs!"history", bs!"!"], ∀ x ∈ c, x ∈ letters := by decide
    exact this c h
  · intro x hx
    simp only [spell, List.mem_append, List.mem_flatMap] at hx
    rcases hx with ⟨w, hw, hx | hx⟩ | hx
    · exact reads_letters h1 w hw x hx
    · rw [List.mem_singleton.1 hx]; decide
    · exact begins_letters h2 x hx

end Verif.Showcase.Ensemble
