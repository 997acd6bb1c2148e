import Verif.Proofs.Answers
import Verif.Props.Completion

set_option linter.unusedSimpArgs false

/-! # Keys that edit the line, in the program `complete` -/

namespace Verif.Showcase
open Spec Props Processor
open Terminal (Key)
open Script (Harmless line_same line_bytes)

variable {σ τ α : Type}

/-! ### What is not changed by writing -/

/-- Colours stay what they are, and escape sequences are forced only if they are on. -/
def Keeps (a b : Io) : Prop := b.style = a.style ∨ (a.style.color = true ∧ b.style = { a.style with forced := true })

theorem keeps_refl (a : Io) : Keeps a a := .inl rfl

theorem keeps_trans {a b c : Io} (h1 : Keeps a b) (h2 : Keeps b c) : Keeps a c := by
  rcases h1 with h1 | ⟨h1, h1'⟩ <;> rcases h2 with h2 | ⟨h2, h2'⟩
  · exact .inl (h2.trans h1)
  · rw [h1] at h2 h2'; exact .inr ⟨h2, h2'⟩
  · exact .inr ⟨h1, h2.trans h1'⟩
  · exact .inr ⟨h1, by rw [h2', h1']⟩

theorem keeps_put (a : Io) (s : Str) : Keeps a (a.put s) := .inl rfl

theorem keeps_sgr (a : Io) (n : Nat) : Keeps a (a.sgr n) := by
  unfold Io.sgr; split
  · exact .inl rfl
  · exact .inl rfl

theorem keeps_before (a : Io) : Keeps a a.beforeInput := by
  unfold Io.beforeInput
  split
  · rename_i h
    refine .inr ⟨h, ?_⟩
    unfold Io.sgr; split <;> rfl
  · exact .inl rfl

theorem keeps_setLine (t : Terminal.Term) (a : Io) (s : Str) : Keeps a (Terminal.setLine t a s).2 := by
  have h : Keeps a ((a.beforeInput.put (Terminal.rep t.pos Terminal.bs)).put s).afterInput := keeps_trans (keeps_before a) (keeps_trans (keeps_put _ _) (keeps_trans (keeps_put _ _) (keeps_sgr _ _)))
  unfold Terminal.setLine
  split
  · exact keeps_trans h (keeps_trans (keeps_put _ _) (keeps_put _ _))
  · exact h

theorem keeps_key {t t' : Terminal.Term} {a b : Io} {k : Key} {y : Terminal.Symbol} (h : Terminal.keypressed t a k = .ok (t', b, y)) : Keeps a b := by
  have p := @keeps_put
  have q := @keeps_trans
  cases k with
  | eof | up | down | clear | ignored => cases h; exact keeps_refl _
  | ret => cases h; exact p _ _
  | home => cases h; exact p _ _
  | left =>
    simp only [Terminal.keypressed] at h
    split at h <;> cases h
    · exact p _ _
    · exact keeps_refl _
  | right =>
    simp only [Terminal.keypressed] at h
    split at h <;> cases h
    · exact q (keeps_before _) (q (p _ _) (keeps_sgr _ _))
    · exact keeps_refl _
  | ascii c =>
    simp only [Terminal.keypressed] at h
    split at h
    · cases h; exact keeps_refl _
    · simp only [bind, Except.bind] at h
      (repeat' split at h) <;> cases h
      exact q (keeps_before _) (q (p _ _) (q (p _ _) (q (keeps_sgr _ _) (p _ _))))
  | backspace =>
    simp only [Terminal.keypressed] at h
    split at h
    · cases h; exact keeps_refl _
    · simp only [bind, Except.bind] at h
      (repeat' split at h) <;> cases h
      exact q (p _ _) (q (p _ _) (q (p _ _) (p _ _)))
  | canc =>
    simp only [Terminal.keypressed] at h
    split at h
    · cases h; exact keeps_refl _
    · simp only [bind, Except.bind] at h
      (repeat' split at h) <;> cases h
      exact q (p _ _) (q (p _ _) (p _ _))
  | «end» =>
    simp only [Terminal.keypressed, bind, Except.bind] at h
    (repeat' split at h) <;> cases h
    exact q (keeps_before _) (q (p _ _) (keeps_sgr _ _))

theorem at_keeps {s : Seat} {w : W τ} {io : Io} (h : At s w) (hp : s.prompted = s) (hk : Keeps w.io io) : At s { w with io := io } := by
  rcases hk with hk | ⟨hc, hk⟩
  · exact at_io h io (by rw [hk]) (by rw [hk])
  · refine at_io h io (by rw [hk]) ?_
    have h1 : s.colour = true := by rw [← h.color]; exact hc
    have h2 : s.escapes = true := by rw [← hp]; simp [Seat.prompted, h1]
    rw [h.escapes, h2, hk]
    simp

/-! ### The state of a session while a line is being typed -/

structure On (d : Desk) (p : Proc St τ) : Prop where
  place : At d.seat { p.w with hist := settled p.w.hist }
  wf : History.WF p.w.hist
  looking : Looking d.back p.w.hist
  term : p.term = ⟨d.text, d.line.before.length⟩
  active : p.active = true
  prompted : d.seat.prompted = d.seat

/-- Everything that can be shown can be printed, and the history has room. -/
structure Tidy (d : Desk) : Prop where
  line : Printable d.text
  book : d.seat.book.Clean
  draft : ∀ x k, d.back = some (x, k) → Printable x
  room : 1 ≤ d.seat.book.room

/-- The screen shows the line, and the cursor is where it should be. -/
def Sees (s0 : Screen) (base : Nat → Nat → Byte) (R c : Nat) (d : Desk) (io : Io) : Prop := s0.run io.out = scr base R c d.text d.line.before.length

theorem text_ofLine (l : Str) : (Zip.ofLine l).text = l := by simp [Zip.ofLine, Zip.text]
theorem before_ofLine (l : Str) : (Zip.ofLine l).before.length = l.length := by simp [Zip.ofLine]

theorem before_le (z : Zip) : z.before.length ≤ z.text.length := by simp [Zip.text]

/-- The line is replaced by another one. -/
theorem write_step {s0 : Screen} {base : Nat → Nat → Byte} {R c : Nat} {d d' : Desk} {p : Proc St τ} {h : History.History} {l : Str} (ho : On d p) (hs : Sees s0 base R c d p.w.io)
    (hw : History.WF h) (hk : Kept d'.seat.book (settled h)) (hl : Looking d'.back h) (hseat : d'.seat = { d.seat with book := d'.seat.book }) (hline : d'.line = Zip.ofLine l) (hp : Printable l) :
    On d' (setLine { p with w := { p.w with hist := h } } l) ∧ Sees s0 base R c d' (setLine { p with w := { p.w with hist := h } } l).w.io := by
  have hpr : d'.seat.prompted = d'.seat := by
    have := congrArg Seat.escapes ho.prompted
    rw [hseat]
    simpa [Seat.prompted] using this
  have ht : d'.text = l := by rw [Desk.text, hline, text_ofLine]
  have a := ho.place
  refine ⟨⟨?_, hw, hl, ?_, ho.active, hpr⟩, ?_⟩
  · have b : At d'.seat { p.w with hist := settled h } := by
      rw [hseat]
      exact ⟨a.tree, a.others, a.color15, a.color16, a.current, a.exit, a.app, a.color, a.escapes, settled_wf hw, by rw [hseat] at hk; exact hk⟩
    exact at_keeps b hpr (keeps_setLine _ _ _)
  · show Terminal.Term.mk l l.length = _
    rw [ht, hline, before_ofLine]
  · show s0.run (Terminal.setLine p.term p.w.io l).2.out = _
    rw [ht, hline, before_ofLine]
    exact setLine_display s0 base R c p.term p.w.io p.term.line l (by rw [ho.term]; exact before_le _) (.inl rfl) hp (by rw [ho.term]; exact hs)

theorem edits_key {k : Key} (h : Edits k) (z : Zip) : EditKey k ∧ z.request k = .nothing := by
  cases h with
  | @ascii c hc =>
    refine ⟨.inl hc, ?_⟩
    have : c ≠ b%'\t' := by rintro rfl; revert hc; decide
    simp [Zip.request, this]
  | _ => exact ⟨trivial, rfl⟩

theorem edit_step (A : App St τ) (fuel : Nat) {s0 : Screen} {base : Nat → Nat → Byte} {R c : Nat} {d : Desk} {p : Proc St τ} {k : Key} (hk : Edits k) (ho : On d p) (ht : Tidy d) (hs : Sees s0 base R c d p.w.io) :
    ∃ q, keypressed A fuel p k = .ok (q, none) ∧ On { d with line := d.line.key k } q ∧ Tidy { d with line := d.line.key k } ∧ Sees s0 base R c { d with line := d.line.key k } q.w.io := by
  obtain ⟨h1, h2⟩ := edits_key hk d.line
  have hrep : Rep p.term d.line := by rw [ho.term]; exact ⟨rfl, rfl⟩
  obtain ⟨g1, t', io', g2, g3, g4⟩ := keypressed_display s0 base R c p.term d.line p.w.io k hrep ht.line h1 hs
  refine ⟨⟨{ p.w with io := io' }, t', p.active⟩, ?_, ⟨?_, ho.wf, ho.looking, ?_, ho.active, ho.prompted⟩, ⟨g1, ht.book, ht.draft, ht.room⟩, g4⟩
  · simp only [keypressed, g2, bind, Except.bind, h2, newCommand]
  · exact at_keeps ho.place ho.prompted (keeps_key g2)
  · exact rep_eq g3

/-! ### The arrows -/

theorem look_tidy {d : Desk} {b : Book} {draft : Str} {k : Nat} (hb : b.Clean) (hd : Printable draft) (hr : 1 ≤ b.room) : Tidy (d.look b draft k) := by
  refine ⟨?_, hb, ?_, hr⟩
  · simp only [Desk.look, Desk.text, text_ofLine]
    generalize hm : min k b.entries.length = m
    have hle : m ≤ b.entries.length := by omega
    cases m with
    | zero => exact hd
    | succ m =>
      simp only [Book.page]
      rw [List.getD_eq_getElem?_getD, List.getElem?_eq_getElem (by rw [List.length_reverse]; omega)]
      exact hb _ (List.mem_reverse.1 (List.getElem_mem _))
  · intro x k h
    simp only [Desk.look, Option.some.injEq, Prod.mk.injEq] at h
    rw [← h.1]; exact hd

theorem up_tidy {d : Desk} (h : Tidy d) : Tidy d.up := by
  have h1 := h.line
  have h2 := h.book
  have h3 := h.draft
  have h4 := h.room
  unfold Desk.up
  split
  · refine look_tidy ?_ h1 ?_
    · unfold Book.spare; split
      · exact h2
      · exact fun e he => h2 e (List.mem_of_mem_drop he)
    · unfold Book.spare; split <;> exact h4
  · exact look_tidy h2 h1 h4
  · rename_i draft k hb
    refine look_tidy ?_ (h3 _ _ hb) h4
    intro e he
    simp only [Book.amend, List.mem_reverse] at he
    rcases List.mem_or_eq_of_mem_set he with he | rfl
    · exact h2 e (List.mem_reverse.1 he)
    · exact h1

theorem down_tidy {d : Desk} (h : Tidy d) : Tidy d.down := by
  unfold Desk.down
  split
  · rename_i draft k hb
    exact look_tidy h.book (h.draft _ _ hb) h.room
  · exact ⟨by simp [Desk.write, Desk.text, Zip.ofLine, Zip.text, Printable], h.book, h.draft, h.room⟩

theorem arrow_up (A : App St τ) (fuel : Nat) {s0 : Screen} {base : Nat → Nat → Byte} {R c : Nat} {d : Desk} {p : Proc St τ} (ho : On d p) (ht : Tidy d) (hs : Sees s0 base R c d p.w.io) :
    ∃ q, keypressed A fuel p .up = .ok (q, none) ∧ On d.up q ∧ Tidy d.up ∧ Sees s0 base R c d.up q.w.io := by
  have hu := up_tidy ht
  obtain ⟨s, z, b⟩ := d
  obtain ⟨h', e1, e2, e3, e4, ⟨b', e5, _⟩, l, e6⟩ := up_step (z := z) ho.wf ho.place.kept ho.looking ht.room
  have el : (Desk.up ⟨s, z, b⟩).text = l := by rw [Desk.text, e6, text_ofLine]
  have hb : (Desk.up ⟨s, z, b⟩).seat = { s with book := (Desk.up ⟨s, z, b⟩).seat.book } := by rw [e5]
  obtain ⟨g1, g2⟩ := write_step (l := l) ho hs e2 e3 e4 hb e6 (by rw [← el]; exact hu.line)
  refine ⟨_, ?_, g1, hu, g2⟩
  have e1' : History.previous p.w.hist p.term.line = .ok (l, h') := by rw [ho.term, ← el]; exact e1
  simp only [keypressed, Terminal.keypressed, bind, Except.bind, newCommand, e1']

theorem arrow_down (A : App St τ) (fuel : Nat) {s0 : Screen} {base : Nat → Nat → Byte} {R c : Nat} {d : Desk} {p : Proc St τ} (ho : On d p) (ht : Tidy d) (hs : Sees s0 base R c d p.w.io) :
    ∃ q, keypressed A fuel p .down = .ok (q, none) ∧ On d.down q ∧ Tidy d.down ∧ Sees s0 base R c d.down q.w.io := by
  have hu := down_tidy ht
  obtain ⟨s, z, b⟩ := d
  obtain ⟨h', e1, e2, e3, e4, e5, l, e6⟩ := down_step (z := z) ho.wf ho.place.kept ho.looking
  have el : (Desk.down ⟨s, z, b⟩).text = l := by rw [Desk.text, e6, text_ofLine]
  have hb : (Desk.down ⟨s, z, b⟩).seat = { s with book := (Desk.down ⟨s, z, b⟩).seat.book } := by rw [e5]
  obtain ⟨g1, g2⟩ := write_step (l := l) ho hs e2 e3 e4 hb e6 (by rw [← el]; exact hu.line)
  refine ⟨_, ?_, g1, hu, g2⟩
  rw [el] at e1
  simp only [keypressed, Terminal.keypressed, bind, Except.bind, newCommand, e1]

/-! ### Writing the prompt and the line again -/

theorem prompt_on {d : Desk} {w : W τ} (ha : At d.seat { w with hist := settled w.hist }) (hp : d.seat.prompted = d.seat) :
    ∃ io, prompt w = .ok { w with io := io } ∧ At d.seat { w with hist := settled w.hist, io := io } ∧ io.out = w.io.out ++ d.seat.prompt := by
  obtain ⟨w', h1, h2, h3⟩ := prompt_says ha
  obtain ⟨io, rfl, _⟩ := Processor.prompt_io h1
  rw [hp] at h2
  refine ⟨io, ?_, h2, h3⟩
  have hx : w.exit = false := ha.exit
  unfold prompt at h1 ⊢
  simp only [hx, Bool.false_eq_true, if_false] at h1 ⊢
  split at h1
  · rename_i m k q e
    rw [← show _ = io from congrArg World.io (Except.ok.inj h1)]
  · cases h1

theorem redraw_step {s0 : Screen} {base : Nat → Nat → Byte} {R : Nat} {d : Desk} {p : Proc St τ} (text : Str) (ho : On d p) (ht : Tidy d) (hs : s0.run (p.w.io.put text).out = scr base R 0 [] 0) :
    ∃ q, redraw { p with w := p.w.put text } p.term.line = .ok q ∧ On (d.write d.text) q ∧ Tidy (d.write d.text) ∧
      ∃ base' c, (scr base R 0 [] 0).run d.seat.prompt = scr base' R c [] 0 ∧ Sees s0 base' R c (d.write d.text) q.w.io := by
  have ha : At d.seat { p.w.put text with hist := settled (p.w.put text).hist } := at_keeps ho.place ho.prompted (keeps_put _ _)
  obtain ⟨io, e1, e2, e3⟩ := prompt_on ha ho.prompted
  obtain ⟨base', c, e4⟩ := prompt_run d.seat base R
  have hd : s0.run io.out = scr base' R c [] 0 := by
    rw [e3, run_append]
    show Screen.run (s0.run (p.w.io.put text).out) _ = _
    rw [hs, e4]
  have htext : (d.write d.text).text = d.text := by simp only [Desk.write, Desk.text, text_ofLine]
  have hbl : (d.write d.text).line.before.length = d.text.length := by simp only [Desk.write, before_ofLine]
  have hl : p.term.line = d.text := by rw [ho.term]
  refine ⟨setLine { p with w := { p.w.put text with io := io }, term := Terminal.resetCursor p.term } p.term.line, ?_, ⟨?_, ho.wf, ho.looking, ?_, ho.active, ho.prompted⟩, ⟨by rw [htext]; exact ht.line, ht.book, ht.draft, ht.room⟩, base', c, e4, ?_⟩
  · simp only [redraw, e1, bind, Except.bind]
  · exact at_keeps e2 ho.prompted (keeps_setLine _ _ _)
  · show Terminal.Term.mk p.term.line p.term.line.length = _
    rw [htext, hbl, hl]
  · show s0.run (Terminal.setLine (Terminal.resetCursor p.term) io p.term.line).2.out = _
    rw [htext, hbl, hl]
    exact setLine_display s0 base' R c (Terminal.resetCursor p.term) io [] d.text (Nat.zero_le _) (.inr (Nat.zero_le _)) ht.line hd

theorem clear_step (A : App St τ) (fuel : Nat) {s0 : Screen} {base : Nat → Nat → Byte} {R c : Nat} {d : Desk} {p : Proc St τ} (ho : On d p) (ht : Tidy d) (hs : Sees s0 base R c d p.w.io) :
    ∃ q, keypressed A fuel p .clear = .ok (q, none) ∧ On (d.write d.text) q ∧ Tidy (d.write d.text) ∧
      ∃ base' R' c', (scr base R c [] 0).run (wipe ++ d.seat.prompt) = scr base' R' c' [] 0 ∧ Sees s0 base' R' c' (d.write d.text) q.w.io := by
  obtain ⟨q, h1, h2, h3, base', c', h4, h5⟩ := redraw_step (s0 := s0) (base := fun _ _ => b%' ') (R := 0) clearScreen ho ht (by rw [run_put, hs]; exact clear_screen _ base R c _ _ rfl)
  refine ⟨q, ?_, h2, h3, base', 0, c', ?_, h5⟩
  · simp only [keypressed, Terminal.keypressed, bind, Except.bind, newCommand, h1]
  · rw [run_append, wipe_run, h4]

end Verif.Showcase
