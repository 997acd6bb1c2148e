import Verif.Spec.Slips
import Verif.Proofs.Sheets
import Verif.Props.Kiosk

set_option linter.unusedSimpArgs false

/-!
# C137: editing lines in the examples with their own `io_context`, proofs
-/

namespace Verif.Hosted
open Spec
open Terminal (Key)
open Props (C38_longest_common_prefix C63_defined_partial C03_split_total)
open Processor
open Props (globalNames)
open Showcase (Book Bang Readable Edits Common leftwards wipe settled settled_wf settled_command Looking looking_none keeps_setLine keeps_put keeps_key edits_key Texty texty_append texty_printable texty_literal lines_end lines_nil
  tokens_printable clean_record clean_forget number_mem render_lines sgr_run feed_run crlf_run wipe_run text_ofLine before_ofLine before_le recalls_kind)
open Workbench (lines_append lines_literal)
open Script (line_same)

abbrev HProc := Proc Iface Storage.Volatile

/-! ### The menu, as the completion sees it -/

theorem tree_kids : Separated (tree.root.name = []) tree.kids ∧ TreePrintable tree := by
  constructor
  · simp [tree, Separated]
  · simp only [TreePrintable, tree, NamesPrintable, Printable, cmd]
    decide

theorem menu_names {s : Stand} {w : W} (h : Here s w) (e : Str) : (∃ c, Spec.Entry.cmd c ∈ entries tree.kids ∧ w.dis c.id = false ∧ e = c.name) ∨ e ∈ globalNames ↔ e ∈ s.names := by
  have d1 := h.at_.hello
  have d2 := h.at_.color
  have d3 := h.at_.nocolor
  cases hc : s.panel.color <;> cases hn : s.panel.nocolor <;> rw [hc] at d2 <;> rw [hn] at d3 <;>
    simp [tree, entries, Stand.names, cmd, globalNames, d1, d2, d3, hc, hn] <;> grind

/-- What the completion offers. -/
theorem offers_here {s : Stand} {w : W} (h : Here s w) {p : Platform} {fuel : Nat} {line : Str} {cs : List Str} (hc : Completion.completions p fuel w line = .ok cs) : s.Offers line cs := by
  obtain ⟨gap, typed, P, e, hg, hp, hs, hm⟩ := Props.completions_spec hc
  rw [h.at_.tree, h.at_.current] at hp
  obtain rfl : [(tree.root, tree.kids)] = P := Option.some.inj hp
  have hoff : ∀ t c, Offered w.dis [(tree.root, tree.kids)] t c ↔ ∃ k, Spec.Entry.cmd k ∈ entries tree.kids ∧ w.dis k.id = false ∧ c = k.name ∧ t <+: c := by
    intro t c
    constructor
    · rintro ⟨ws, Q, r, x, h1, h2, rfl⟩
      cases h1 with
      | here =>
        cases h2 with
        | cmd g1 g2 g3 => exact ⟨_, g1, g2, rfl, g3⟩
        | menu g1 => simp [tree, entries] at g1
      | down g1 => simp [tree, entries] at g1
    · rintro ⟨k, g1, g2, rfl, g3⟩
      exact ⟨[], _, t, k.name, .here _ _, .cmd g1 g2 g3, rfl⟩
  refine ⟨hs, fun c => ?_⟩
  rw [hm c, hoff]
  constructor
  · rintro (⟨h1, h2⟩ | ⟨k, h1, h2, h3, h4⟩)
    · exact ⟨gap, typed, e, hg, (menu_names h c).1 (.inr h1), h2⟩
    · exact ⟨gap, typed, e, hg, (menu_names h c).1 (.inl ⟨k, h1, h2, h3⟩), h4⟩
  · rintro ⟨gap', typed', e', hg', h1, h2⟩
    obtain ⟨-, rfl⟩ := Completion.gap_unique hg hg' (e.symm.trans e')
    rcases (menu_names h c).2 h1 with ⟨k, k1, k2, k3⟩ | h3
    · exact .inr ⟨k, k1, k2, k3, h2⟩
    · exact .inl ⟨h3, h2⟩

/-! ### Answers are lines of text -/

theorem help_lines (k : Panel) : Lines (bs!"Commands available:\n" ++ (globalItems ++ k.offers).flatMap HelpItem.text) := by
  obtain ⟨a, b, c, d⟩ := k
  cases a <;> cases b <;> cases c <;> cases d <;> exact lines_literal (by decide +kernel)

theorem does_lines {k k' : Panel} {toks : List Str} {t : Str} (h : k.Does toks k' t) : Lines t := by
  cases h with
  | help => exact help_lines k
  | _ => exact lines_literal (by decide +kernel)

/-- What is answered to a line that can be printed are lines of text, and what is in the book can still be printed. -/
theorem answer_lines {s s' : Stand} {l t : Str} (h : s.Answer l s' t) : s.book.Clean → Printable l → Lines t ∧ s'.book.Clean ∧ s'.book.room = s.book.room := by
  have room : ∀ (b : Book) (l : Str), (b.record l).room = b.room := by
    intro b l
    unfold Book.record
    split
    · rfl
    · split <;> rfl
  induction h with
  | blank _ => intro hb _; exact ⟨lines_nil, hb, rfl⟩
  | does _ h2 _ => intro hb hl; exact ⟨does_lines h2, clean_record hb hl, room _ _⟩
  | wrong _ _ _ _ =>
    intro hb hl
    exact ⟨lines_end (texty_append.2 ⟨texty_literal (by decide +kernel), texty_printable hl⟩), clean_record hb hl, room _ _⟩
  | history _ => intro hb hl; exact ⟨render_lines (clean_record hb hl), clean_record hb hl, room _ _⟩
  | again _ h2 _ ih =>
    intro hb hl
    have hc := clean_forget (clean_record hb hl)
    obtain ⟨g1, g2, g3⟩ := ih hc (hc _ (number_mem h2))
    exact ⟨g1, g2, g3.trans (room _ _)⟩
  | unknown _ _ =>
    intro hb hl
    refine ⟨?_, clean_forget (clean_record hb hl), room _ _⟩
    rw [show (bs!".\n" : Str) = bs!"." ++ bs!"\n" from rfl, ← List.append_assoc]
    exact lines_end (texty_append.2 ⟨texty_append.2 ⟨texty_literal (by decide +kernel), texty_printable hl⟩, texty_literal (by decide)⟩)

theorem here_book {s : Stand} {w : W} {x : History.History} (h : Here s w) (hw : History.WF x) {b : Book} (hk : Showcase.Kept b x) : Here { s with book := b } { w with hist := x } :=
  ⟨⟨h.at_.tree, h.at_.current, h.at_.root, h.at_.hello, h.at_.color, h.at_.nocolor, h.at_.on, h.at_.left, h.at_.stopped, hw⟩, h.stays, h.escapes, hk⟩

/-! ### The screen -/

/-- The colours of the session, as those of the program `complete`. -/
def Stand.seat (s : Stand) : Showcase.Seat := ⟨.root, s.panel.on, false, s.escapes, s.book⟩

/-- The line, as one of the program `complete`. -/
def Slip.shadow (d : Slip) : Showcase.Desk := ⟨d.stand.seat, d.line, d.back⟩

theorem echoes_seat (s : Stand) (l : Str) : s.echoes l = s.seat.echoes l := rfl

theorem echoes_run (s : Stand) (base : Nat → Nat → Byte) (R c : Nat) (l : Str) (hl : Printable l) : (scr base R c [] 0).run (s.echoes l) = scr base R c l l.length := Showcase.echoes_run s.seat base R c l hl

theorem line_run (s : Stand) (base : Nat → Nat → Byte) (R c : Nat) (z : Zip) (hl : Printable z.text) :
    (scr base R c [] 0).run (s.echoes z.text ++ leftwards z.after.length) = scr base R c z.text z.before.length := Showcase.line_run s.seat base R c z hl

theorem prompt_run (s : Stand) (base : Nat → Nat → Byte) (R : Nat) : ∃ base' c, (scr base R 0 [] 0).run s.prompt = scr base' R c [] 0 := by
  have h1 : Printable bs!"cli" := by intro x hx; revert hx x; decide
  have h2 : Printable bs!"> " := by intro x hx; revert hx x; decide
  have e1 : (scr base R 0 [] 0).run (if s.panel.on then bs!"\x1b[32m\x1b[1m" else []) = scr base R 0 [] 0 := by
    split
    · exact (sgr_run _ rfl).2.2
    · rfl
  have e2 : (scr base R 0 bs!"cli" bs!"cli".length).run (if s.panel.on || s.escapes then bs!"\x1b[0m" else []) = scr base R 0 bs!"cli" bs!"cli".length := by
    split
    · exact (sgr_run _ rfl).1
    · rfl
  have e3 : (scr base R 0 [] 0).run bs!"cli" = scr base R 0 bs!"cli" bs!"cli".length := by
    rw [run_text _ _ _ _ h1 _ _ (by simp)]
    simp [overwrite]
  have e4 : (scr base R 0 bs!"cli" bs!"cli".length).run bs!"> " = scr base R 0 (bs!"cli" ++ bs!"> ") (bs!"cli" ++ bs!"> ").length := by
    rw [run_text _ _ _ _ h2 _ _ (Nat.le_refl _)]
    have : bs!"cli".drop (bs!"cli".length + 2) = [] := List.drop_eq_nil_of_le (by omega)
    simp [overwrite, this]
  unfold Stand.prompt
  rw [run_append, run_append, run_append, e1, e3, e2, e4, scr_rebase]
  exact ⟨_, _, rfl⟩

/-- An answer and the next prompt. -/
theorem answer_run (s : Stand) {t : Str} (ht : Lines t) (base : Nat → Nat → Byte) (R : Nat) : ∃ base' R' c, (scr base R 0 [] 0).run (t ++ s.prompt) = scr base' R' c [] 0 := by
  rw [run_append]
  by_cases hn : t = []
  · subst hn
    obtain ⟨b, c, h⟩ := prompt_run s base R
    exact ⟨b, R, c, h⟩
  · obtain ⟨b1, R1, h1, _⟩ := run_lines t (scr base R 0 [] 0) base R ht hn ⟨base, 0, rfl, fun _ _ => rfl⟩
    rw [h1]
    obtain ⟨b, c, h⟩ := prompt_run s b1 R1
    exact ⟨b, R1, c, h⟩

theorem shadow_up (d : Slip) : d.up.shadow = d.shadow.up ∧ ∃ b, d.up.stand = { d.stand with book := b } := by
  obtain ⟨s, z, b⟩ := d
  rcases b with _ | ⟨x, _ | k⟩ <;> exact ⟨rfl, _, rfl⟩

theorem shadow_down (d : Slip) : d.down.shadow = d.shadow.down ∧ d.down.stand = d.stand := by
  obtain ⟨s, z, b⟩ := d
  rcases b with _ | ⟨x, _ | k⟩ <;> exact ⟨rfl, rfl⟩

/-! ### The state of a session while a line is being typed -/

theorem here_keeps {s : Stand} {w : W} {io : Io} (h : Here s w) (hp : s.prompted = s) (hk : Showcase.Keeps w.io io) : Here s { w with io := io } := by
  rcases hk with hk | ⟨hc, hk⟩
  · exact here_io h io (by rw [hk]) (by rw [hk])
  · refine here_io h io (by rw [hk]) ?_
    have h1 : s.panel.on = true := by rw [← h.at_.on]; exact hc
    have h2 : s.escapes = true := by
      have := congrArg Stand.escapes hp
      simp only [Stand.prompted, h1, Bool.true_or] at this
      exact this.symm
    rw [h.escapes, h2, hk]
    simp

structure On (d : Slip) (p : HProc) : Prop where
  place : Here d.stand { p.w with hist := settled p.w.hist }
  wf : History.WF p.w.hist
  looking : Looking d.back p.w.hist
  term : p.term = ⟨d.text, d.line.before.length⟩
  active : p.active = true
  prompted : d.stand.prompted = d.stand

/-- Everything that can be shown can be printed, and the history has room. -/
structure Tidy (d : Slip) : Prop where
  line : Printable d.text
  book : d.stand.book.Clean
  draft : ∀ x k, d.back = some (x, k) → Printable x
  room : 1 ≤ d.stand.book.room

/-- The screen shows the line, and the cursor is where it should be. -/
def Sees (s0 : Screen) (base : Nat → Nat → Byte) (R c : Nat) (d : Slip) (io : Io) : Prop := s0.run io.out = scr base R c d.text d.line.before.length

/-- The line is replaced by another one. -/
theorem write_step {s0 : Screen} {base : Nat → Nat → Byte} {R c : Nat} {d d' : Slip} {p : HProc} {h : History.History} {l : Str} (ho : On d p) (hs : Sees s0 base R c d p.w.io)
    (hw : History.WF h) (hk : Showcase.Kept d'.stand.book (settled h)) (hl : Looking d'.back h) (hseat : d'.stand = { d.stand with book := d'.stand.book }) (hline : d'.line = Zip.ofLine l) (hp : Printable l) :
    On d' (setLine { p with w := { p.w with hist := h } } l) ∧ Sees s0 base R c d' (setLine { p with w := { p.w with hist := h } } l).w.io := by
  have hpr : d'.stand.prompted = d'.stand := by
    have := congrArg Stand.escapes ho.prompted
    rw [hseat]
    simp only [Stand.prompted] at this ⊢
    rw [this]
  have ht : d'.text = l := by rw [Slip.text, hline, text_ofLine]
  have a := ho.place
  refine ⟨⟨?_, hw, hl, ?_, ho.active, hpr⟩, ?_⟩
  · have b : Here d'.stand { p.w with hist := settled h } := by
      rw [hseat]
      exact here_book a (settled_wf hw) (by rw [hseat] at hk; exact hk)
    exact here_keeps b hpr (keeps_setLine _ _ _)
  · show Terminal.Term.mk l l.length = _
    rw [ht, hline, before_ofLine]
  · show s0.run (Terminal.setLine p.term p.w.io l).2.out = _
    rw [ht, hline, before_ofLine]
    exact setLine_display s0 base R c p.term p.w.io p.term.line l (by rw [ho.term]; exact before_le _) (.inl rfl) hp (by rw [ho.term]; exact hs)

theorem edit_step (A : App Iface Storage.Volatile) (fuel : Nat) {s0 : Screen} {base : Nat → Nat → Byte} {R c : Nat} {d : Slip} {p : HProc} {k : Key} (hk : Edits k) (ho : On d p) (ht : Tidy d) (hs : Sees s0 base R c d p.w.io) :
    ∃ q, keypressed A fuel p k = .ok (q, none) ∧ On { d with line := d.line.key k } q ∧ Tidy { d with line := d.line.key k } ∧ Sees s0 base R c { d with line := d.line.key k } q.w.io := by
  obtain ⟨h1, h2⟩ := edits_key hk d.line
  have hrep : Rep p.term d.line := by rw [ho.term]; exact ⟨rfl, rfl⟩
  obtain ⟨g1, t', io', g2, g3, g4⟩ := keypressed_display s0 base R c p.term d.line p.w.io k hrep ht.line h1 hs
  refine ⟨⟨{ p.w with io := io' }, t', p.active⟩, ?_, ⟨?_, ho.wf, ho.looking, ?_, ho.active, ho.prompted⟩, ⟨g1, ht.book, ht.draft, ht.room⟩, g4⟩
  · simp only [keypressed, g2, bind, Except.bind, h2, newCommand]
  · exact here_keeps ho.place ho.prompted (keeps_key g2)
  · exact rep_eq g3

/-! ### The arrows -/

theorem look_tidy {d : Slip} {b : Book} {draft : Str} {k : Nat} (hb : b.Clean) (hd : Printable draft) (hr : 1 ≤ b.room) : Tidy (d.look b draft k) := by
  refine ⟨?_, hb, ?_, hr⟩
  · simp only [Slip.look, Slip.text, text_ofLine]
    generalize hm : min k b.entries.length = m
    have hle : m ≤ b.entries.length := by omega
    cases m with
    | zero => exact hd
    | succ m =>
      simp only [Book.page]
      rw [List.getD_eq_getElem?_getD, List.getElem?_eq_getElem (by rw [List.length_reverse]; omega)]
      exact hb _ (List.mem_reverse.1 (List.getElem_mem _))
  · intro x k h
    simp only [Slip.look, Option.some.injEq, Prod.mk.injEq] at h
    rw [← h.1]; exact hd

theorem up_tidy {d : Slip} (h : Tidy d) : Tidy d.up := by
  have h1 := h.line
  have h2 := h.book
  have h3 := h.draft
  have h4 := h.room
  unfold Slip.up
  split
  · refine look_tidy ?_ h1 ?_
    · unfold Book.spare; split
      · exact h2
      · exact fun e he => h2 e (List.mem_of_mem_drop he)
    · unfold Book.spare; split <;> exact h4
  · exact look_tidy h2 h1 h4
  · rename_i draft k hb
    refine look_tidy ?_ (h3 _ _ hb) h4
    intro e he
    simp only [Book.amend, List.mem_reverse] at he
    rcases List.mem_or_eq_of_mem_set he with he | rfl
    · exact h2 e (List.mem_reverse.1 he)
    · exact h1

theorem down_tidy {d : Slip} (h : Tidy d) : Tidy d.down := by
  unfold Slip.down
  split
  · rename_i draft k hb
    exact look_tidy h.book (h.draft _ _ hb) h.room
  · exact ⟨by simp [Slip.write, Slip.text, Zip.ofLine, Zip.text, Printable], h.book, h.draft, h.room⟩

theorem arrow_up (A : App Iface Storage.Volatile) (fuel : Nat) {s0 : Screen} {base : Nat → Nat → Byte} {R c : Nat} {d : Slip} {p : HProc} (ho : On d p) (ht : Tidy d) (hs : Sees s0 base R c d p.w.io) :
    ∃ q, keypressed A fuel p .up = .ok (q, none) ∧ On d.up q ∧ Tidy d.up ∧ Sees s0 base R c d.up q.w.io := by
  have hu := up_tidy ht
  obtain ⟨h', e1, e2, e3, e4, _, l, e6⟩ := Showcase.up_step (s := d.stand.seat) (z := d.line) (back := d.back) ho.wf ho.place.kept ho.looking ht.room
  obtain ⟨g1, b', g2⟩ := shadow_up d
  have g1 : d.up.shadow = Showcase.Desk.up ⟨d.stand.seat, d.line, d.back⟩ := g1
  rw [← g1] at e1 e3 e4 e6
  have e1 : History.previous p.w.hist d.text = .ok (d.up.text, h') := e1
  have e3 : Showcase.Kept d.up.stand.book (settled h') := e3
  have e4 : Looking d.up.back h' := e4
  have e6 : d.up.line = Zip.ofLine l := e6
  have el : d.up.text = l := by rw [Slip.text, e6, text_ofLine]
  have hb : d.up.stand = { d.stand with book := d.up.stand.book } := by rw [g2]
  obtain ⟨g1, g2⟩ := write_step (l := l) ho hs e2 e3 e4 hb e6 (by rw [← el]; exact hu.line)
  refine ⟨_, ?_, g1, hu, g2⟩
  have e1' : History.previous p.w.hist p.term.line = .ok (l, h') := by rw [ho.term, ← el]; exact e1
  simp only [keypressed, Terminal.keypressed, bind, Except.bind, newCommand, e1']

theorem arrow_down (A : App Iface Storage.Volatile) (fuel : Nat) {s0 : Screen} {base : Nat → Nat → Byte} {R c : Nat} {d : Slip} {p : HProc} (ho : On d p) (ht : Tidy d) (hs : Sees s0 base R c d p.w.io) :
    ∃ q, keypressed A fuel p .down = .ok (q, none) ∧ On d.down q ∧ Tidy d.down ∧ Sees s0 base R c d.down q.w.io := by
  have hu := down_tidy ht
  obtain ⟨h', e1, e2, e3, e4, _, l, e6⟩ := Showcase.down_step (s := d.stand.seat) (z := d.line) (back := d.back) ho.wf ho.place.kept ho.looking
  obtain ⟨g1, g2⟩ := shadow_down d
  have g1 : d.down.shadow = Showcase.Desk.down ⟨d.stand.seat, d.line, d.back⟩ := g1
  rw [← g1] at e1 e3 e4 e6
  have e1 : History.next p.w.hist = .ok (d.down.text, h') := e1
  have e3 : Showcase.Kept d.down.stand.book (settled h') := e3
  have e4 : Looking d.down.back h' := e4
  have e6 : d.down.line = Zip.ofLine l := e6
  have el : d.down.text = l := by rw [Slip.text, e6, text_ofLine]
  have hb : d.down.stand = { d.stand with book := d.down.stand.book } := by rw [g2]
  obtain ⟨g1, g2⟩ := write_step (l := l) ho hs e2 e3 e4 hb e6 (by rw [← el]; exact hu.line)
  refine ⟨_, ?_, g1, hu, g2⟩
  rw [el] at e1
  simp only [keypressed, Terminal.keypressed, bind, Except.bind, newCommand, e1]

/-! ### Writing the prompt and the line again -/

theorem prompt_on {d : Slip} {w : W} (ha : Here d.stand { w with hist := settled w.hist }) (hp : d.stand.prompted = d.stand) :
    ∃ io, prompt w = .ok { w with io := io } ∧ Here d.stand { w with hist := settled w.hist, io := io } ∧ io.out = w.io.out ++ d.stand.prompt := by
  obtain ⟨w', h1, h2, h3⟩ := prompt_here ha
  obtain ⟨io, rfl, _⟩ := Processor.prompt_io h1
  rw [hp] at h2
  refine ⟨io, ?_, h2, h3⟩
  have hx : w.exit = false := ha.at_.left.trans ha.stays
  unfold prompt at h1 ⊢
  simp only [hx, Bool.false_eq_true, if_false] at h1 ⊢
  split at h1
  · rename_i m k q e
    rw [← show _ = io from congrArg World.io (Except.ok.inj h1)]
  · cases h1

theorem redraw_step {s0 : Screen} {base : Nat → Nat → Byte} {R : Nat} {d : Slip} {p : HProc} (text : Str) (ho : On d p) (ht : Tidy d) (hs : s0.run (p.w.io.put text).out = scr base R 0 [] 0) :
    ∃ q, redraw { p with w := p.w.put text } p.term.line = .ok q ∧ On (d.write d.text) q ∧ Tidy (d.write d.text) ∧
      ∃ base' c, (scr base R 0 [] 0).run d.stand.prompt = scr base' R c [] 0 ∧ Sees s0 base' R c (d.write d.text) q.w.io := by
  have ha : Here d.stand { p.w.put text with hist := settled (p.w.put text).hist } := here_keeps ho.place ho.prompted (keeps_put _ _)
  obtain ⟨io, e1, e2, e3⟩ := prompt_on ha ho.prompted
  obtain ⟨base', c, e4⟩ := prompt_run d.stand base R
  have hd : s0.run io.out = scr base' R c [] 0 := by
    rw [e3, run_append]
    show Screen.run (s0.run (p.w.io.put text).out) _ = _
    rw [hs, e4]
  have htext : (d.write d.text).text = d.text := by simp only [Slip.write, Slip.text, text_ofLine]
  have hbl : (d.write d.text).line.before.length = d.text.length := by simp only [Slip.write, before_ofLine]
  have hl : p.term.line = d.text := by rw [ho.term]
  refine ⟨setLine { p with w := { p.w.put text with io := io }, term := Terminal.resetCursor p.term } p.term.line, ?_, ⟨?_, ho.wf, ho.looking, ?_, ho.active, ho.prompted⟩, ⟨by rw [htext]; exact ht.line, ht.book, ht.draft, ht.room⟩, base', c, e4, ?_⟩
  · simp only [redraw, e1, bind, Except.bind]
  · exact here_keeps e2 ho.prompted (keeps_setLine _ _ _)
  · show Terminal.Term.mk p.term.line p.term.line.length = _
    rw [htext, hbl, hl]
  · show s0.run (Terminal.setLine (Terminal.resetCursor p.term) io p.term.line).2.out = _
    rw [htext, hbl, hl]
    exact setLine_display s0 base' R c (Terminal.resetCursor p.term) io [] d.text (Nat.zero_le _) (.inr (Nat.zero_le _)) ht.line hd

theorem clear_step (A : App Iface Storage.Volatile) (fuel : Nat) {s0 : Screen} {base : Nat → Nat → Byte} {R c : Nat} {d : Slip} {p : HProc} (ho : On d p) (ht : Tidy d) (hs : Sees s0 base R c d p.w.io) :
    ∃ q, keypressed A fuel p .clear = .ok (q, none) ∧ On (d.write d.text) q ∧ Tidy (d.write d.text) ∧
      ∃ base' R' c', (scr base R c [] 0).run (wipe ++ d.stand.prompt) = scr base' R' c' [] 0 ∧ Sees s0 base' R' c' (d.write d.text) q.w.io := by
  obtain ⟨q, h1, h2, h3, base', c', h4, h5⟩ := redraw_step (s0 := s0) (base := fun _ _ => b%' ') (R := 0) clearScreen ho ht (by rw [run_put, hs]; exact clear_screen _ base R c _ _ rfl)
  refine ⟨q, ?_, h2, h3, base', 0, c', ?_, h5⟩
  · simp only [keypressed, Terminal.keypressed, bind, Except.bind, newCommand, h1]
  · rw [run_append, wipe_run, h4]

/-! ### One key -/

/-- A key is handled, and what it leads to is what it should. -/
def Steps (A : App Iface Storage.Volatile) (fuel : Nat) (s0 : Screen) (base : Nat → Nat → Byte) (R c : Nat) (d : Slip) (p : HProc) (k : Key) : Prop :=
  ∃ q d' o, keypressed A fuel p k = .ok (q, none) ∧ On d' q ∧ Tidy d' ∧ (∀ ks d'' o', Drafting d' ks d'' o' → Drafting d (k :: ks) d'' (o ++ o')) ∧
    ∃ base' R' c', (scr base R c [] 0).run o = scr base' R' c' [] 0 ∧ Sees s0 base' R' c' d' q.w.io

/-- It ends the session. -/
def Ends (A : App Iface Storage.Volatile) (fuel : Nat) (s0 : Screen) (base : Nat → Nat → Byte) (R c : Nat) (p : HProc) (k : Key) (o : Str) : Prop :=
  ∃ q, keypressed A fuel p k = .ok (q, none) ∧ q.w.exit = true ∧ q.w.app.stopped = true ∧ s0.run q.w.io.out = (scr base R c [] 0).run o

theorem written (d : Slip) {l : Str} (hp : Printable l) (ht : Tidy d) : Tidy (d.write l) := ⟨by simpa only [Slip.write, Slip.text, text_ofLine] using hp, ht.book, ht.draft, ht.room⟩

theorem rewrite_step {s0 : Screen} {base : Nat → Nat → Byte} {R c : Nat} {d : Slip} {p : HProc} {l : Str} (ho : On d p) (hs : Sees s0 base R c d p.w.io) (hp : Printable l) :
    On (d.write l) (setLine p l) ∧ Sees s0 base R c (d.write l) (setLine p l).w.io :=
  write_step (d' := d.write l) (h := p.w.hist) ho hs ho.wf ho.place.kept ho.looking rfl rfl hp

theorem tab_step (A : App Iface Storage.Volatile) (fuel : Nat) {s0 : Screen} {base : Nat → Nat → Byte} {R c : Nat} {d : Slip} {p : HProc} (hf : 2 * d.text.length + 2 ≤ fuel) (ho : On d p) (ht : Tidy d) (hs : Sees s0 base R c d p.w.io) :
    Steps A fuel s0 base R c d p (.ascii 9) := by
  have hl : p.term.line = d.text := by rw [ho.term]
  have ha := ho.place
  have htree : p.w.tree = tree := ha.at_.tree
  obtain ⟨cs, hcs⟩ := C63_defined_partial A.plat p.w d.text (by rw [htree]; exact tree_kids.1) (by rw [htree, show p.w.current = 0 from ha.at_.current]; rfl)
    (.inr fun c hc => by have := ht.line c hc; simp [printable] at this; omega) fuel hf
  have hoff : d.stand.Offers d.text cs := offers_here ha (w := { p.w with hist := settled p.w.hist }) (p := A.plat) (fuel := fuel) hcs
  have hpr : ∀ c ∈ cs, Printable c := completions_printable (by rw [htree]; exact tree_kids.2) hcs
  have key : ∀ q, tab A fuel p = .ok q → keypressed A fuel p (.ascii 9) = .ok (q, none) := by
    intro q hq
    simp only [keypressed, Terminal.keypressed, show ((9 : Byte) = b%'\t') = True by simp, if_true, bind, Except.bind, newCommand]
    rw [show ({ p with w := { p.w with io := p.w.io } } : HProc) = p from rfl, hq]
  match cs, hoff, hpr, hcs with
  | [], hoff, _, hcs =>
    have htab : tab A fuel p = .ok p := by simp only [tab, hl, hcs, bind, Except.bind]
    exact ⟨p, d, [], key _ htab, ho, ht, fun ks d'' o' h => .tabNone hoff h, base, R, c, rfl, hs⟩
  | [x], hoff, hpr, hcs =>
    have htab : tab A fuel p = .ok (setLine p (x ++ bs!" ")) := by simp only [tab, hl, hcs, bind, Except.bind]
    have hx : Printable (x ++ bs!" ") := printable_append.2 ⟨hpr x (by simp), by intro y hy; revert hy y; decide⟩
    obtain ⟨g1, g2⟩ := rewrite_step ho hs hx
    exact ⟨_, d.write (x ++ bs!" "), [], key _ htab, g1, written d hx ht, fun ks d'' o' h => .tabOne hoff h, base, R, c, rfl, g2⟩
  | x :: y :: cs, hoff, hpr, hcs =>
    obtain ⟨pre, hpre, hp1, hp2⟩ := C38_longest_common_prefix (x :: y :: cs) (by simp)
    have htab : tab A fuel p = if pre.length > d.text.length then .ok (setLine p pre) else redraw { p with w := (p.w.put bs!"\n").put (items (x :: y :: cs) ++ bs!"\n") } d.text := by
      simp only [tab, hl, hcs, hpre, bind, Except.bind]
    by_cases hlen : pre.length > d.text.length
    · rw [if_pos hlen] at htab
      have hx : Printable pre := fun b hb => hpr x (by simp) b ((hp1 x (by simp)).subset hb)
      obtain ⟨g1, g2⟩ := rewrite_step ho hs hx
      exact ⟨_, d.write pre, [], key _ htab, g1, written d hx ht, fun ks d'' o' h => .tabMore hoff ⟨hp1, hp2⟩ hlen h, base, R, c, rfl, g2⟩
    · rw [if_neg hlen] at htab
      have e1 : (scr base R c [] 0).run (d.stand.echoes d.text ++ bs!"\n") = s0.run (p.w.io.put bs!"\n").out := by
        rw [run_append, echoes_run _ _ _ _ _ ht.line, run_put, hs, feed_run, feed_run]
      obtain ⟨base1, e2⟩ := Props.listing_row s0 p.w.io base R c d.text d.line.before.length (x :: y :: cs) hs hpr
      have e3 : s0.run (p.w.io.put (bs!"\n" ++ (items (x :: y :: cs) ++ bs!"\n"))).out = scr base1 (R + 1 + 1) 0 [] 0 := by
        rw [← e2]; simp [Io.put]
      obtain ⟨q, h1, h2, h3, base', c', h4, h5⟩ := redraw_step _ ho ht e3
      refine ⟨q, d.write d.text, d.stand.echoes d.text ++ bs!"\n" ++ (x :: y :: cs).flatMap (bs!"\t" ++ ·) ++ bs!"\n" ++ d.stand.prompt, key _ ?_, h2, h3, ?_, base', _, c', ?_, h5⟩
      · rw [htab, ← hl, ← h1]
        simp [World.put, Io.put]
      · intro ks d'' o' h
        exact .tabList hoff ⟨hp1, hp2⟩ (by omega) h
      · rw [run_append, ← h4, ← e2, List.append_assoc (d.stand.echoes d.text ++ bs!"\n"), run_append, e1, run_put _ _ (items (x :: y :: cs) ++ bs!"\n")]
        rfl

theorem enter_step (pf : Platform) (fuel : Nat) {s0 : Screen} {base : Nat → Nat → Byte} {R c : Nat} {d : Slip} {p : HProc}
    (hw : Within pf (fuel + 1) d.stand.book d.text) (hn : ¬ Fails d.stand.book d.text) (ho : On d p) (ht : Tidy d) (hs : Sees s0 base R c d p.w.io) :
    (¬ Quits d.stand.book d.text ∧ Steps (app pf) (fuel + 2) s0 base R c d p .ret) ∨
    (Quits d.stand.book d.text ∧ Ends (app pf) (fuel + 2) s0 base R c p .ret (d.stand.echoes d.text ++ bs!"\r\n" ++ farewell)) := by
  have hl : p.term.line = d.text := by rw [ho.term]
  have ha : Here d.stand { p.w.put bs!"\r\n" with hist := settled (p.w.put bs!"\r\n").hist } := here_keeps ho.place ho.prompted (keeps_put _ _)
  have e1 : (scr base R c [] 0).run (d.stand.echoes d.text ++ bs!"\r\n") = s0.run (p.w.io.put bs!"\r\n").out := by
    rw [run_append, echoes_run _ _ _ _ _ ht.line, run_put, hs, crlf_run, crlf_run]
  have e2 : s0.run (p.w.io.put bs!"\r\n").out = scr (scr base R c d.text 0).cell (R + 1) 0 [] 0 := by rw [run_put, hs, crlf_run]
  have key : keypressed (app pf) (fuel + 2) p .ret = (do
      let (w, x) ← feed (app pf) (fuel + 2) d.text (p.w.put bs!"\r\n")
      match x with
      | some e => .ok (⟨w, ⟨[], 0⟩, false⟩, some e)
      | none => do
        let w ← prompt w
        .ok (⟨w, ⟨[], 0⟩, true⟩, none)) := by
    simp only [keypressed, Terminal.keypressed, bind, Except.bind, newCommand, hl]
    rfl
  have shown : ∀ (s' : Stand) {t : Str} {io : Io}, Lines t → io.out = (p.w.io.put bs!"\r\n").out ++ t ++ s'.prompt →
      ∃ base' R' c', (scr base R c [] 0).run (d.stand.echoes d.text ++ bs!"\r\n" ++ t ++ s'.prompt) = scr base' R' c' [] 0 ∧ s0.run io.out = scr base' R' c' [] 0 := by
    intro s' t io h1 h2
    obtain ⟨base', R', c', h3⟩ := answer_run s' h1 (scr base R c d.text 0).cell (R + 1)
    have h4 : (s0.run (p.w.io.put bs!"\r\n").out).run (t ++ s'.prompt) = scr base' R' c' [] 0 := by rw [e2, h3]
    refine ⟨base', R', c', ?_, ?_⟩
    · rw [List.append_assoc _ t, run_append, e1, h4]
    · rw [h2, List.append_assoc, run_append, h4]
  by_cases hblank : Lex.Line d.text []
  · have hnq : ¬ Quits d.stand.book d.text := by
      intro h
      cases h with
      | exit h => cases line_same hblank h
      | again h _ _ => exact (recalls_kind h).1 hblank
    obtain ⟨io, p1, p2, p3⟩ := prompt_on ha ho.prompted
    obtain ⟨base', R', c', g1, g2⟩ := shown d.stand lines_nil (by rw [p3]; simp [World.put])
    refine .inl ⟨hnq, ⟨{ p.w.put bs!"\r\n" with io := io }, ⟨[], 0⟩, true⟩, ⟨d.stand, ⟨[], []⟩, d.back⟩, d.stand.echoes d.text ++ bs!"\r\n" ++ [] ++ d.stand.prompt, ?_, ⟨p2, ho.wf, ho.looking, rfl, rfl, ho.prompted⟩,
      ⟨by simp [Slip.text, Zip.text, Printable], ht.book, ht.draft, ht.room⟩, ?_, base', R', c', g1, g2⟩
    · rw [key, feed_blank _ hblank]
      simp only [bind, Except.bind, p1]
    · intro ks d'' o' h
      have h' : Drafting ⟨d.stand.prompted, ⟨[], []⟩, d.back⟩ ks d'' o' := by rw [ho.prompted]; exact h
      exact .enter (.blank hblank) (.inl ⟨hblank, rfl⟩) h'
  · obtain ⟨toks, htoks⟩ : ∃ toks, Lex.Line d.text toks := ⟨_, (split_iff _ _).1 (C03_split_total d.text).choose_spec⟩
    have hne : toks ≠ [] := by rintro rfl; exact hblank htoks
    have hfeed : feed (app pf) (fuel + 2) d.text (p.w.put bs!"\r\n") = feed (app pf) (fuel + 2) d.text { p.w.put bs!"\r\n" with hist := settled (p.w.put bs!"\r\n").hist } := by
      rw [feed_eq _ htoks hne, feed_eq _ htoks hne]
      have : History.newCommand (settled (p.w.put bs!"\r\n").hist) d.text = History.newCommand (p.w.put bs!"\r\n").hist d.text := settled_command ho.wf _
      simp only [this]
      rfl
    rcases line_step pf (fuel + 1) ha hw with ⟨w', g1, g2, g3, g4, g5⟩ | ⟨g1, _⟩ | ⟨w', s', t, _, g2, g3, g4, g5⟩
    · refine .inr ⟨g1, ⟨w', ⟨[], 0⟩, true⟩, ?_, g4, g5, ?_⟩
      · rw [key, hfeed, g2]
        simp only [bind, Except.bind, prompt, g4, if_true]
      · show s0.run w'.io.out = _
        rw [g3, run_append, run_append _ _ (farewell), e1]
        rfl
    · exact absurd g1 hn
    · obtain ⟨l1, l2, l3⟩ := answer_lines g3 ht.book ht.line
      obtain ⟨w2, p1, p2, p3⟩ := prompt_here g4
      have hset : settled w2.hist = w2.hist := looking_none p2.kept.mode
      obtain ⟨base', R', c', k1, k2⟩ := shown s' (io := w2.io) l1 (by rw [p3, g5]; rfl)
      refine .inl ⟨fun h => stand_no_quit h rfl g3, ⟨w2, ⟨[], 0⟩, true⟩, ⟨s'.prompted, ⟨[], []⟩, none⟩, d.stand.echoes d.text ++ bs!"\r\n" ++ t ++ s'.prompt, ?_, ⟨?_, p2.at_.hist, p2.kept.mode, rfl, rfl, stand_prompted _⟩,
        ⟨by simp [Slip.text, Zip.text, Printable], l2, by simp, ?_⟩, ?_, base', R', c', k1, k2⟩
      · rw [key, hfeed, g2]
        simp only [bind, Except.bind, p1]
      · show Here s'.prompted { w2 with hist := settled w2.hist }
        rw [hset]; exact p2
      · show 1 ≤ s'.prompted.book.room
        have : s'.prompted.book.room = s'.book.room := rfl
        rw [this, l3]; exact ht.room
      · intro ks d'' o' h
        exact .enter g3 (.inr ⟨hblank, rfl⟩) h

/-- A line whose behaviour should be undefined leads to undefined behaviour. -/
theorem fail_step (pf : Platform) (fuel : Nat) {d : Slip} {p : HProc} (hw : Within pf (fuel + 1) d.stand.book d.text) (hf : Fails d.stand.book d.text) (ho : On d p) :
    ∃ u, keypressed (app pf) (fuel + 2) p .ret = .error (.ub u) := by
  have hl : p.term.line = d.text := by rw [ho.term]
  have ha : Here d.stand { p.w.put bs!"\r\n" with hist := settled (p.w.put bs!"\r\n").hist } := here_keeps ho.place ho.prompted (keeps_put _ _)
  obtain ⟨toks, htoks⟩ : ∃ toks, Lex.Line d.text toks := ⟨_, (split_iff _ _).1 (C03_split_total d.text).choose_spec⟩
  rcases line_step pf (fuel + 1) ha hw with ⟨_, e, _⟩ | ⟨_, u, e⟩ | ⟨_, _, _, e, _⟩
  · exact (fails_no_quits hf e).elim
  · have hne : toks ≠ [] := by
      rintro rfl
      rw [feed_blank _ htoks] at e
      cases e
    have hfeed : feed (app pf) (fuel + 2) d.text (p.w.put bs!"\r\n") = feed (app pf) (fuel + 2) d.text { p.w.put bs!"\r\n" with hist := settled (p.w.put bs!"\r\n").hist } := by
      rw [feed_eq _ htoks hne, feed_eq _ htoks hne]
      have : History.newCommand (settled (p.w.put bs!"\r\n").hist) d.text = History.newCommand (p.w.put bs!"\r\n").hist d.text := settled_command ho.wf _
      simp only [this]
      rfl
    refine ⟨u, ?_⟩
    simp only [keypressed, Terminal.keypressed, bind, Except.bind, newCommand, hl]
    have e' := hfeed.trans e
    simp only [World.put] at e'
    simp only [e']
  · exact absurd hf e

theorem eof_step (pf : Platform) (fuel : Nat) {s0 : Screen} {base : Nat → Nat → Byte} {R c : Nat} {d : Slip} {p : HProc} (ho : On d p) (ht : Tidy d) (hs : Sees s0 base R c d p.w.io) :
    Ends (app pf) fuel s0 base R c p .eof (d.stand.echoes d.text ++ leftwards d.line.after.length ++ farewell) := by
  have hg : ∃ cmds, History.getCommands p.w.hist = .ok cmds := by
    unfold History.getCommands
    split
    · rename_i hm
      have := (ho.wf.browse hm)
      split
      · rename_i he; rw [he] at this; simp at this
      · exact ⟨_, rfl⟩
    · exact ⟨_, rfl⟩
  obtain ⟨cmds, hg⟩ := hg
  have hx : ∃ w', exitSession (app pf) p.w = .ok (w', none) ∧ w'.io.out = p.w.io.out ++ farewell ∧ w'.exit = true ∧ w'.app.stopped = true := by
    refine ⟨_, by
      simp only [exitSession, app, callAction, optAction, World.effect, World.note, List.foldl_cons, List.foldl_nil, World.act, World.put, Io.put, hg, Bool.false_eq_true, if_false, if_true]
      rfl, ?_, rfl, rfl⟩
    simp [farewell]
  obtain ⟨w', h1, h2, h3, h4⟩ := hx
  refine ⟨{ p with w := w' }, ?_, h3, h4, ?_⟩
  · simp only [keypressed, Terminal.keypressed, bind, Except.bind, newCommand]
    rw [show ({ p.w with io := p.w.io } : W) = p.w from rfl, h1]
  · show s0.run w'.io.out = _
    have e : (scr base R c [] 0).run (d.stand.echoes d.text ++ leftwards d.line.after.length) = scr base R c d.text d.line.before.length := line_run _ _ _ _ _ ht.line
    rw [h2, run_append, run_append, hs, e]

end Verif.Hosted
