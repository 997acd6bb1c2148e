import Verif.Spec.Drafts
import Verif.Proofs.Processor
import Verif.Proofs.History
import Verif.Proofs.Showcase

set_option linter.unusedSimpArgs false

/-!
# Proofs about editing lines in the program `complete`: the screen, and the history while the user looks through it
-/

namespace Verif.Showcase
open Spec Processor

/-! ### The screen -/

theorem sgr_run (s : Screen) (hn : s.esc = .normal) : s.run bs!"\x1b[0m" = s ∧ s.run bs!"\x1b[97m" = s ∧ s.run bs!"\x1b[32m\x1b[1m" = s := by
  have e97 : decimal 97 = bs!"97" := by decide +kernel
  have e0 : decimal 0 = bs!"0" := by decide +kernel
  have e1 : decimal 1 = bs!"1" := by decide +kernel
  have e32 : decimal 32 = bs!"32" := by decide +kernel
  have h0 := run_sgr s 0 hn
  have h1 := run_sgr s 1 hn
  have h32 := run_sgr s 32 hn
  have h97 := run_sgr s 97 hn
  rw [e0] at h0
  rw [e1] at h1
  rw [e32] at h32
  rw [e97] at h97
  refine ⟨h0, h97, ?_⟩
  rw [show bs!"\x1b[32m\x1b[1m" = bs!"\x1b[32m" ++ bs!"\x1b[1m" from rfl, run_append]
  exact (congrArg (·.run bs!"\x1b[1m") h32).trans h1

theorem echo_run (s : Seat) (base : Nat → Nat → Byte) (R c : Nat) (l : Str) {b : Byte} (hb : printable b = true) :
    (scr base R c l l.length).run (s.echo b) = scr base R c (l ++ [b]) (l ++ [b]).length := by
  have hp : Printable [b] := by intro x hx; rw [List.mem_singleton.1 hx]; exact hb
  have e : (scr base R c l l.length).run [b] = scr base R c (l ++ [b]) (l ++ [b]).length := by
    rw [run_text _ _ _ _ hp _ _ (Nat.le_refl _)]
    have : l.drop (l.length + 1) = [] := List.drop_eq_nil_of_le (by omega)
    simp [overwrite, this]
  unfold Seat.echo
  rw [run_append, run_append]
  have h1 : (scr base R c l l.length).run (if s.colour then bs!"\x1b[97m" else []) = scr base R c l l.length := by
    split
    · exact (sgr_run _ rfl).2.1
    · rfl
  rw [h1, e]
  split
  · exact (sgr_run _ rfl).1
  · rfl

theorem echoes_run (s : Seat) (base : Nat → Nat → Byte) (R c : Nat) (l : Str) (hl : Printable l) : (scr base R c [] 0).run (s.echoes l) = scr base R c l l.length := by
  have key : ∀ (k a : Str), Printable k → (scr base R c a a.length).run (s.echoes k) = scr base R c (a ++ k) (a ++ k).length := by
    intro k
    induction k with
    | nil => intro a _; simp [Seat.echoes, run_nil]
    | cons x k ih =>
      intro a h
      have e : s.echoes (x :: k) = s.echo x ++ s.echoes k := rfl
      rw [e, run_append, echo_run s base R c a (h x (by simp)), ih _ (fun y hy => h y (by simp [hy]))]
      simp
  exact key l [] hl

/-- The line with the cursor. -/
theorem line_run (s : Seat) (base : Nat → Nat → Byte) (R c : Nat) (z : Zip) (hl : Printable z.text) :
    (scr base R c [] 0).run (s.echoes z.text ++ leftwards z.after.length) = scr base R c z.text z.before.length := by
  rw [run_append, echoes_run s base R c _ hl]
  have := run_bs base R c z.text z.after.length z.text.length (by simp [Zip.text])
  have e : z.text.length - z.after.length = z.before.length := by simp [Zip.text]
  rw [e] at this
  exact this

/-- The end of the line: where the cursor is does not matter. -/
theorem cell_pos (base : Nat → Nat → Byte) (R c : Nat) (l : Str) (i j : Nat) : (scr base R c l i).cell = (scr base R c l j).cell := rfl

theorem feed_run (base : Nat → Nat → Byte) (R c : Nat) (l : Str) (i : Nat) :
    (scr base R c l i).run bs!"\n" = scr (scr base R c l 0).cell (R + 1) 0 [] 0 := run_newline base R c l i

theorem crlf_run (base : Nat → Nat → Byte) (R c : Nat) (l : Str) (i : Nat) : (scr base R c l i).run bs!"\r\n" = scr (scr base R c l 0).cell (R + 1) 0 [] 0 := by
  rw [← feed_run base R c l i, run_cons, run_cons, run_nil, run_cons, run_nil]
  simp [Screen.step, scr]

theorem prompt_printable (p : Place) : Printable p.prompt := by cases p <;> (intro x hx; revert hx x; decide)

theorem prompt_run (s : Seat) (base : Nat → Nat → Byte) (R : Nat) : ∃ base' c, (scr base R 0 [] 0).run s.prompt = scr base' R c [] 0 := by
  have h2 : Printable bs!"> " := by intro x hx; revert hx x; decide
  have e1 : (scr base R 0 [] 0).run (if s.colour then bs!"\x1b[32m\x1b[1m" else []) = scr base R 0 [] 0 := by
    split
    · exact (sgr_run _ rfl).2.2
    · rfl
  have e2 : (scr base R 0 s.place.prompt s.place.prompt.length).run (if s.colour || s.escapes then bs!"\x1b[0m" else []) = scr base R 0 s.place.prompt s.place.prompt.length := by
    split
    · exact (sgr_run _ rfl).1
    · rfl
  have e3 : (scr base R 0 [] 0).run s.place.prompt = scr base R 0 s.place.prompt s.place.prompt.length := by
    rw [run_text _ _ _ _ (prompt_printable _) _ _ (by simp)]
    simp [overwrite]
  have e4 : (scr base R 0 s.place.prompt s.place.prompt.length).run bs!"> " = scr base R 0 (s.place.prompt ++ bs!"> ") (s.place.prompt ++ bs!"> ").length := by
    rw [run_text _ _ _ _ h2 _ _ (Nat.le_refl _)]
    have : s.place.prompt.drop (s.place.prompt.length + 2) = [] := List.drop_eq_nil_of_le (by omega)
    simp [overwrite, this]
  unfold Seat.prompt
  rw [run_append, run_append, run_append, e1, e3, e2, e4, scr_rebase]
  exact ⟨_, _, rfl⟩

/-- An answer and the next prompt. -/
theorem answer_run (s : Seat) {t : Str} (ht : Lines t) (base : Nat → Nat → Byte) (R : Nat) : ∃ base' R' c, (scr base R 0 [] 0).run (t ++ s.prompt) = scr base' R' c [] 0 := by
  rw [run_append]
  by_cases hn : t = []
  · subst hn
    obtain ⟨b, c, h⟩ := prompt_run s base R
    exact ⟨b, R, c, h⟩
  · obtain ⟨b1, R1, h1, _⟩ := run_lines t (scr base R 0 [] 0) base R ht hn ⟨base, 0, rfl, fun _ _ => rfl⟩
    rw [h1]
    obtain ⟨b, c, h⟩ := prompt_run s b1 R1
    exact ⟨b, R1, c, h⟩

theorem wipe_run (base : Nat → Nat → Byte) (R c : Nat) (l : Str) (i : Nat) : (scr base R c l i).run wipe = scr (fun _ _ => b%' ') 0 0 [] 0 := clear_screen _ base R c l i rfl

/-! ### The history while somebody looks through it -/

open History in
/-- The history without the line that was being typed. -/
def settled (h : History) : History := match h.mode with
  | .browsing => { h with buffer := h.buffer.tail, mode := .inserting, current := 0 }
  | .inserting => h

/-- The user is as many steps back as this. -/
def Looking (back : Option (Str × Nat)) (h : History.History) : Prop :=
  match back with
  | none => h.mode = .inserting
  | some (draft, k) => h.mode = .browsing ∧ h.current = k ∧ ∃ rest, h.buffer = draft :: rest

theorem settled_wf {h : History.History} (hw : History.WF h) : History.WF (settled h) := by
  unfold settled
  cases hm : h.mode with
  | inserting => exact hw
  | browsing => exact ⟨by simp; have := hw.bound; omega, by simp, by simp⟩

theorem settled_command {h : History.History} (hw : History.WF h) (item : Str) : History.newCommand (settled h) item = History.newCommand h item := by
  cases hm : h.mode with
  | inserting => simp [settled, hm]
  | browsing =>
    have hb := hw.browse hm
    have hl := hw.bound
    obtain ⟨m, buf, cur, cmds, mode, id⟩ := h
    simp only at hm hb hl
    subst hm
    cases buf with
    | nil => simp at hb
    | cons d rest =>
      simp only [List.length_cons] at hl
      have : ¬ m < rest.length + 1 := by omega
      simp only [settled, History.newCommand, List.tail_cons, History.insert, List.length_cons, gt_iff_lt]
      by_cases hh : rest.head? = some item <;> simp [hh, this]

theorem looking_none {h : History.History} (hl : Looking none h) : settled h = h := by
  have hm : h.mode = .inserting := hl
  simp [settled, hm]

theorem page_get (b : Book) (draft : Str) (k : Nat) (hk : k ≤ b.entries.length) : (draft :: b.entries.reverse)[k]? = some (b.page draft k) := by
  cases k with
  | zero => rfl
  | succ k =>
    simp only [List.getElem?_cons_succ, Book.page]
    rw [List.getD_eq_getElem?_getD, List.getElem?_eq_getElem (by rw [List.length_reverse]; omega)]
    rfl

/-- The arrow up. -/
theorem up_step {s : Seat} {z : Zip} {back : Option (Str × Nat)} {h : History.History} (hw : History.WF h) (hk : Kept s.book (settled h)) (hl : Looking back h) (hr : 1 ≤ s.book.room) :
    ∃ h', History.previous h z.text = .ok ((Desk.up ⟨s, z, back⟩).text, h') ∧ History.WF h' ∧ Kept (Desk.up ⟨s, z, back⟩).seat.book (settled h') ∧ Looking (Desk.up ⟨s, z, back⟩).back h' ∧
      (∃ b, (Desk.up ⟨s, z, back⟩).seat = { s with book := b } ∧ b.room = s.book.room) ∧ ∃ l, (Desk.up ⟨s, z, back⟩).line = Zip.ofLine l := by
  have ht : ∀ l, (Zip.ofLine l).text = l := by intro l; simp [Zip.ofLine, Zip.text]
  obtain ⟨m, buf, cur, cmds, mode, id⟩ := h
  obtain ⟨pl, co, go, es, ⟨room, first, ents, cnt⟩⟩ := s
  obtain ⟨b1, b2, b3⟩ := hw
  obtain ⟨k1, k2, k3, k4, k5⟩ := hk
  cases back with
  | none =>
    have hm : mode = .inserting := hl
    subst hm
    simp only [settled] at k1 k2 k3 k4 k5 b1 b2 b3
    subst k2 k3 k4 k5
    have hc := b3 trivial
    subst hc
    by_cases hf : ents.length < m
    · have e : Desk.up ⟨⟨pl, co, go, es, ⟨m, id, ents, cmds⟩⟩, z, none⟩ = Desk.look ⟨⟨pl, co, go, es, ⟨m, id, ents, cmds⟩⟩, z, none⟩ ⟨m, id, ents, cmds⟩ z.text 1 := by simp [Desk.up, Book.spare, hf, Desk.text]
      rw [e]
      have hn : ¬ (z.text :: ents.reverse).length > m := by simp; omega
      have hcur : (if (z.text :: ents.reverse).length > 1 then 1 else 0) = min 1 ents.length := by
        cases ents <;> simp
      refine ⟨⟨m, z.text :: ents.reverse, min 1 ents.length, cmds, .browsing, id⟩, ?_, ⟨by simp; omega, fun _ => by simp; omega, by simp⟩, ⟨rfl, rfl, rfl, by simp [settled, Desk.look], rfl⟩, ⟨rfl, rfl, _, rfl⟩, ⟨_, rfl, rfl⟩, _, rfl⟩
      simp only [History.previous, History.insert, if_neg hn, bind, Except.bind, pure, Except.pure, hcur]
      have := page_get ⟨m, id, ents, cmds⟩ z.text (min 1 ents.length) (Nat.min_le_right _ _)
      simp only [History.getCurrent, this, Desk.look, Desk.text, ht]
    · have hfull : ents.length = m := by rw [List.length_reverse] at b1; omega
      have e : Desk.up ⟨⟨pl, co, go, es, ⟨m, id, ents, cmds⟩⟩, z, none⟩ = Desk.look ⟨⟨pl, co, go, es, ⟨m, id, ents, cmds⟩⟩, z, none⟩ ⟨m, id + 1, ents.drop 1, cmds⟩ z.text 1 := by simp [Desk.up, Book.spare, hf, Desk.text]
      rw [e]
      have hn : (z.text :: ents.reverse).length > m := by simp; omega
      cases ents with
      | nil => simp at hfull; simp only at hr; omega
      | cons x ents =>
        have hdl : (z.text :: (x :: ents).reverse).dropLast = z.text :: ents.reverse := by
          rw [show z.text :: (x :: ents).reverse = (z.text :: ents.reverse) ++ [x] by simp, List.dropLast_concat]
        have hcur : (if (z.text :: ents.reverse).length > 1 then 1 else 0) = min 1 ents.length := by
          cases ents <;> simp
        simp only [List.length_cons] at hfull
        refine ⟨⟨m, z.text :: ents.reverse, min 1 ents.length, cmds, .browsing, id + 1⟩, ?_, ⟨by simp; omega, fun _ => by simp; omega, by simp⟩, ⟨rfl, rfl, rfl, by simp [settled, Desk.look], rfl⟩, ⟨rfl, by simp [Desk.look], _, rfl⟩, ⟨_, rfl, rfl⟩, _, rfl⟩
        simp only [History.previous, History.insert, if_pos hn, hdl, bind, Except.bind, pure, Except.pure, hcur]
        have := page_get ⟨m, id + 1, ents, cmds⟩ z.text (min 1 ents.length) (Nat.min_le_right _ _)
        simp only [History.getCurrent, this, Desk.look, Desk.text, ht, List.drop_succ_cons, List.drop_zero]
  | some bk =>
    obtain ⟨draft, k⟩ := bk
    obtain ⟨hm, rfl, rest, hbuf⟩ := hl
    simp only at hm hbuf
    subst hm hbuf
    simp only [settled, List.tail_cons] at k1 k2 k3 k4 k5 b1 b2 b3
    subst k2 k3 k4 k5
    have hc := b2 trivial
    simp only [List.length_cons, List.length_reverse] at hc b1
    cases cur with
    | zero =>
      have e : Desk.up ⟨⟨pl, co, go, es, ⟨m, id, ents, cmds⟩⟩, z, some (draft, 0)⟩ = Desk.look ⟨⟨pl, co, go, es, ⟨m, id, ents, cmds⟩⟩, z, some (draft, 0)⟩ ⟨m, id, ents, cmds⟩ z.text 1 := rfl
      rw [e]
      refine ⟨⟨m, z.text :: ents.reverse, min 1 ents.length, cmds, .browsing, id⟩, ?_, ⟨by simp; omega, fun _ => by simp; omega, by simp⟩, ⟨rfl, rfl, rfl, by simp [settled, Desk.look], rfl⟩, ⟨rfl, rfl, _, rfl⟩, ⟨_, rfl, rfl⟩, _, rfl⟩
      have := page_get ⟨m, id, ents, cmds⟩ z.text (min 1 ents.length) (Nat.min_le_right _ _)
      simp only [History.previous, List.length_cons, List.length_reverse, if_pos hc, List.set_cons_zero, bind, Except.bind, pure, Except.pure]
      by_cases h0 : ents.length = 0
      · have : ents = [] := List.length_eq_zero_iff.1 h0
        subst this
        simp [History.getCurrent, Desk.look, Desk.text, ht, Book.page]
      · have h1 : min 1 ents.length = 1 := by omega
        rw [h1] at this
        have h2 : (0 : Nat) ≠ ents.length + 1 - 1 := by omega
        rw [if_pos h2]
        simp only [History.getCurrent, Nat.zero_add, this, Desk.look, Desk.text, ht, h1]
    | succ k =>
      have e : Desk.up ⟨⟨pl, co, go, es, ⟨m, id, ents, cmds⟩⟩, z, some (draft, k + 1)⟩ =
          Desk.look ⟨⟨pl, co, go, es, ⟨m, id, ents, cmds⟩⟩, z, some (draft, k + 1)⟩ ⟨m, id, (ents.reverse.set k z.text).reverse, cmds⟩ draft (k + 2) := rfl
      rw [e]
      have hlen : (ents.reverse.set k z.text).reverse.length = ents.length := by simp
      refine ⟨⟨m, draft :: ents.reverse.set k z.text, min (k + 2) ents.length, cmds, .browsing, id⟩, ?_, ⟨by simp; omega, fun _ => by simp; omega, by simp⟩, ⟨rfl, rfl, rfl, by simp [settled, Desk.look], rfl⟩, ⟨rfl, by simp [Desk.look], _, rfl⟩, ⟨_, rfl, rfl⟩, _, rfl⟩
      have := page_get ⟨m, id, (ents.reverse.set k z.text).reverse, cmds⟩ draft (min (k + 2) ents.length) (by simp only [hlen]; exact Nat.min_le_right _ _)
      simp only [List.reverse_reverse] at this
      simp only [History.previous, List.length_cons, List.length_reverse, if_pos hc, List.set_cons_succ, List.length_set, bind, Except.bind, pure, Except.pure]
      by_cases h0 : k + 1 = ents.length
      · have h2 : ¬ (k + 1 ≠ ents.length + 1 - 1) := by omega
        rw [if_neg h2]
        have h1 : min (k + 2) ents.length = k + 1 := by omega
        rw [h1] at this
        simp only [History.getCurrent, this, Desk.look, Desk.text, ht, hlen, h1]
      · have h2 : k + 1 ≠ ents.length + 1 - 1 := by omega
        rw [if_pos h2]
        have h1 : min (k + 2) ents.length = k + 2 := by omega
        rw [h1] at this
        simp only [History.getCurrent, this, Desk.look, Desk.text, ht, hlen, h1]

/-- The arrow down. -/
theorem down_step {s : Seat} {z : Zip} {back : Option (Str × Nat)} {h : History.History} (hw : History.WF h) (hk : Kept s.book (settled h)) (hl : Looking back h) :
    ∃ h', History.next h = .ok ((Desk.down ⟨s, z, back⟩).text, h') ∧ History.WF h' ∧ Kept (Desk.down ⟨s, z, back⟩).seat.book (settled h') ∧ Looking (Desk.down ⟨s, z, back⟩).back h' ∧
      (Desk.down ⟨s, z, back⟩).seat = s ∧ ∃ l, (Desk.down ⟨s, z, back⟩).line = Zip.ofLine l := by
  have ht : ∀ l, (Zip.ofLine l).text = l := by intro l; simp [Zip.ofLine, Zip.text]
  obtain ⟨m, buf, cur, cmds, mode, id⟩ := h
  obtain ⟨pl, co, go, es, ⟨room, first, ents, cnt⟩⟩ := s
  have hw' := hw
  have hk' := hk
  obtain ⟨b1, b2, b3⟩ := hw
  obtain ⟨k1, k2, k3, k4, k5⟩ := hk
  cases back with
  | none =>
    have hm : mode = .inserting := hl
    subst hm
    have hc := b3 rfl
    simp only at hc
    subst hc
    exact ⟨_, by simp [History.next, Desk.down, Desk.write, Desk.text, ht], hw', hk', hl, rfl, _, rfl⟩
  | some bk =>
    obtain ⟨draft, k⟩ := bk
    obtain ⟨hm, rfl, rest, hbuf⟩ := hl
    simp only at hm hbuf
    subst hm hbuf
    cases cur with
    | zero => exact ⟨_, by simp [History.next, Desk.down, Desk.write, Desk.text, ht], hw', hk', ⟨rfl, rfl, _, rfl⟩, rfl, _, rfl⟩
    | succ k =>
      simp only [settled, List.tail_cons] at k1 k2 k3 k4 k5 b1 b2 b3
      subst k2 k3 k4 k5
      have hc := b2 trivial
      simp only [List.length_cons, List.length_reverse] at hc b1
      have hmin : min k ents.length = k := by omega
      refine ⟨⟨m, draft :: ents.reverse, k, cmds, .browsing, id⟩, ?_, ⟨by simp; omega, fun _ => by simp; omega, by simp⟩, ⟨rfl, rfl, rfl, by simp [settled, Desk.look, Desk.down], rfl⟩, ⟨rfl, by simp [Desk.look, hmin], _, rfl⟩, rfl, _, rfl⟩
      have := page_get ⟨m, id, ents, cmds⟩ draft k (by simp only; omega)
      simp only [History.next, bind, Except.bind, pure, Except.pure]
      simp only [reduceCtorEq, Nat.add_one_ne_zero, or_self, if_false, Nat.add_sub_cancel, History.getCurrent, this, Desk.down, Desk.look, Desk.text, ht, hmin]

end Verif.Showcase
