import Verif.Spec.Kiosk
import Verif.Props.Panel
import Verif.Props.Hosted

set_option linter.unusedSimpArgs false

/-!
# C134: the examples with their own `io_context`, from the keyboard to the screen
-/

namespace Verif.Hosted
open Spec
open Terminal (Key)
open Keyboard (decode)
open Showcase (Book Bang Readable enter keyOf keys_printable Plainly plainly_enter decode_plainly Goes goes_handled goes_run handled_typed prefix_line enter_inj recalls_same recalls_kind listing_same mem_listing kept_record
  kept_forget kept_listing kept_start)
open Script (line_same)
open Props (enterLine InTurn inTurn_run inTurn_create program_rest Moves)

variable {α : Type}

/-! ### The answers are unambiguous -/

theorem recalls_toks {l : Str} {n : Nat} (h : Showcase.Recalls l n) {toks : List Str} (hl : Lex.Line l toks) : Recalls toks := by
  obtain ⟨a, h1, h2, h3⟩ := h
  cases line_same hl h1
  exact .inr ⟨a, n, rfl, h2, h3⟩

theorem does_not_recalls {k k' : Panel} {toks : List Str} {t : Str} (h : k.Does toks k' t) : ¬ Recalls toks ∧ toks ≠ [] := by
  cases h <;> refine ⟨?_, by simp⟩ <;> rintro (e | ⟨a, n, e, _⟩) <;> simp at e

theorem stand_unique {s a b : Stand} {l t u : Str} (h1 : s.Answer l a t) (h2 : s.Answer l b u) : a = b ∧ t = u := by
  induction h1 generalizing b u with
  | blank x =>
    cases h2 with
    | blank => exact ⟨rfl, rfl⟩
    | does y d => cases line_same x y; exact absurd rfl (does_not_recalls d).2
    | wrong y n => exact absurd (line_same y x) n
    | history y => cases line_same x y
    | again y => exact absurd x (recalls_kind y).1
    | unknown y => exact absurd x (recalls_kind y).1
  | does x d =>
    cases h2 with
    | blank y => cases line_same x y; exact absurd rfl (does_not_recalls d).2
    | does y e => cases line_same x y; obtain ⟨rfl, rfl⟩ := does_same d e; exact ⟨rfl, rfl⟩
    | wrong y _ _ n => cases line_same x y; exact absurd d (n _ _)
    | history y => cases line_same x y; exact absurd (.inl rfl) (does_not_recalls d).1
    | again y => exact absurd (recalls_toks y x) (does_not_recalls d).1
    | unknown y => exact absurd (recalls_toks y x) (does_not_recalls d).1
  | wrong x n1 n2 n3 =>
    cases h2 with
    | blank y => exact absurd (line_same x y) n1
    | does y e => cases line_same x y; exact absurd e (n3 _ _)
    | wrong y => exact ⟨rfl, rfl⟩
    | history y => cases line_same x y; exact absurd (.inl rfl) n2
    | again y => exact absurd (recalls_toks y x) n2
    | unknown y => exact absurd (recalls_toks y x) n2
  | history x =>
    cases h2 with
    | blank y => cases line_same x y
    | does y e => cases line_same x y; exact absurd (.inl rfl) (does_not_recalls e).1
    | wrong y _ n => cases line_same x y; exact absurd (.inl rfl) n
    | history => exact ⟨rfl, rfl⟩
    | again y => exact absurd x (recalls_kind y).2.1
    | unknown y => exact absurd x (recalls_kind y).2.1
  | again x m _ ih =>
    cases h2 with
    | blank y => exact absurd y (recalls_kind x).1
    | does y e => exact absurd (recalls_toks x y) (does_not_recalls e).1
    | wrong y _ n => exact absurd (recalls_toks x y) n
    | history y => exact absurd y (recalls_kind x).2.1
    | again y m' h =>
      cases recalls_same x y
      cases listing_same m m'
      exact ih h
    | unknown y m' =>
      cases recalls_same x y
      exact absurd m (m' _)
  | unknown x m =>
    cases h2 with
    | blank y => exact absurd y (recalls_kind x).1
    | does y e => exact absurd (recalls_toks x y) (does_not_recalls e).1
    | wrong y _ n => exact absurd (recalls_toks x y) n
    | history y => exact absurd y (recalls_kind x).2.1
    | again y m' h =>
      cases recalls_same x y
      exact absurd m' (m _)
    | unknown y => exact ⟨rfl, rfl⟩

/-- A line that is answered does not end the session. -/
theorem stand_no_quit {b : Book} {l : Str} (h2 : Quits b l) : ∀ {s s' : Stand} {t : Str}, s.book = b → s.Answer l s' t → False := by
  induction h2 with
  | exit x =>
    intro s s' t hb h1
    cases h1 with
    | blank y => cases line_same x y
    | does y _ n => exact n (line_same y x)
    | wrong y _ _ n => cases line_same x y; exact n _ _ .exit
    | history y => cases line_same x y
    | again y => exact (recalls_kind y).2.2 x
    | unknown y => exact (recalls_kind y).2.2 x
  | again x m _ ih =>
    intro s s' t hb h1
    subst hb
    cases h1 with
    | blank y => exact (recalls_kind x).1 y
    | does y e => exact (does_not_recalls e).1 (recalls_toks x y)
    | wrong y _ n => exact n (recalls_toks x y)
    | history y => exact (recalls_kind x).2.1 y
    | again y m' h =>
      cases recalls_same x y
      cases listing_same m m'
      exact ih rfl h
    | unknown y m' =>
      cases recalls_same x y
      exact m' _ m

theorem fails_no_quits {b : Book} {l : Str} (h1 : Fails b l) (h2 : Quits b l) : False := by
  induction h1 with
  | again x m _ ih =>
    cases h2 with
    | exit y => exact (recalls_kind x).2.2 y
    | again y m' h =>
      cases recalls_same x y
      cases listing_same m m'
      exact ih h
  | empty x e =>
    cases h2 with
    | exit y => obtain ⟨n, x⟩ := x; exact (recalls_kind x).2.2 y
    | again y m' h =>
      have hm := mem_listing m'
      rcases e with e | ⟨_, e⟩
      · simp [skipped, Book.forget, e] at hm
      · rw [e] at hm; cases hm

theorem plain_no_fail {b : Book} {l : Str} (hn : ¬ Bang l) : ¬ Fails b l := by
  intro h
  cases h with
  | again x => exact hn ⟨_, x⟩
  | empty x => exact hn x

theorem stand_prompted (s : Stand) : s.prompted.prompted = s.prompted := by
  obtain ⟨⟨a, b, c, d⟩, e, k⟩ := s
  cases c <;> cases e <;> rfl

theorem chat_unique {s a b : Stand} {ls : List Str} {o o' : Str} (h1 : Dialogue s ls a o) (h2 : Dialogue s ls b o') : a = b ∧ o = o' := by
  induction h1 generalizing b o' with
  | nil => cases h2; exact ⟨rfl, rfl⟩
  | line hl _ ih =>
    cases h2 with
    | line hl' hr =>
      obtain ⟨rfl, rfl⟩ := stand_unique hl hl'
      obtain ⟨rfl, rfl⟩ := ih hr
      exact ⟨rfl, rfl⟩

theorem chat_split {s s' : Stand} {a b : List Str} {o : Str} (h : Dialogue s (a ++ b) s' o) : ∃ s1 o1 o2, Dialogue s a s1 o1 ∧ Dialogue s1 b s' o2 := by
  induction a generalizing s o with
  | nil => exact ⟨s, [], o, .nil, h⟩
  | cons l a ih =>
    cases h with
    | line h1 h2 =>
      obtain ⟨s1, o1, o2, g1, g2⟩ := ih h2
      exact ⟨s1, _, o2, .line h1 g1, g2⟩

theorem chat_no_quit {s a b : Stand} {ls : List Str} {l o o' : Str} (h1 : Dialogue s (ls ++ [l]) a o) (h2 : Dialogue s ls b o') (h3 : Quits b.book l) : False := by
  obtain ⟨s1, o1, o2, g1, g2⟩ := chat_split h1
  obtain ⟨rfl, _⟩ := chat_unique g1 h2
  cases g2 with
  | line g _ => exact stand_no_quit h3 rfl g

/-- **C134** What is typed determines what is written. -/
theorem C134_spec {s : Stand} {b o o' : Str} (h1 : Scene s b o) (h2 : Scene s b o') : o = o' := by
  have end_ : ∀ (ls : List Str) (l : Str), enter ls ++ (l ++ bs!"\n") = enter (ls ++ [l]) ++ [] := by intro ls l; simp [enter]
  have both : ∀ {ls : List Str} {l : Str}, (∀ x ∈ ls, Printable x) → Printable l → ∀ x ∈ ls ++ [l], Printable x := by
    intro ls l h1 h2 x hx
    rcases List.mem_append.1 hx with h | h
    · exact h1 x h
    · rw [List.mem_singleton] at h; subst h; exact h2
  have nil : Printable [] := by intro c h; cases h
  generalize hb : b = b' at h2
  cases h1 with
  | typing d1 p1 p2 =>
    cases h2 with
    | typing d3 p3 p4 =>
      obtain ⟨rfl, rfl⟩ := enter_inj p1 p3 p2 p4 hb
      obtain ⟨rfl, rfl⟩ := chat_unique d1 d3
      rfl
    | over d3 p3 p4 x =>
      rw [end_] at hb
      obtain ⟨rfl, rfl⟩ := enter_inj p1 (both p3 p4) p2 nil hb
      exact (chat_no_quit d1 d3 x).elim
  | over d1 p1 p2 x =>
    cases h2 with
    | typing d3 p3 p4 =>
      rw [end_] at hb
      obtain ⟨rfl, rfl⟩ := enter_inj (both p1 p2) p3 nil p4 hb
      exact (chat_no_quit d3 d1 x).elim
    | over d3 p3 p4 _ =>
      rw [end_, end_] at hb
      have := (enter_inj (both p1 p2) (both p3 p4) nil nil hb).1
      obtain ⟨rfl, e⟩ := List.append_inj' this rfl
      cases e
      obtain ⟨rfl, rfl⟩ := chat_unique d1 d3
      rfl

/-! ### One line -/

/-- The session is in this state. -/
structure Here (s : Stand) (w : W) : Prop where
  at_ : At s.panel w
  stays : s.panel.left = false
  escapes : (w.io.style.forced || w.io.style.tty) = s.escapes
  kept : Showcase.Kept s.book w.hist

theorem does_left {k k' : Panel} {toks : List Str} {t : Str} (h : k.Does toks k' t) (hx : toks ≠ [bs!"exit"]) : k'.left = k.left := by
  cases h <;> first | rfl | exact absurd rfl hx

theorem here_note {s : Stand} {w : W} (h : Here s w) (io : Io) (log : List Event) (hio : io.style = w.io.style) : Here s { w with io := io, log := log } :=
  ⟨⟨h.at_.tree, h.at_.current, h.at_.root, h.at_.hello, h.at_.color, h.at_.nocolor, by show io.style.color = _; rw [hio]; exact h.at_.on, h.at_.left, h.at_.stopped, h.at_.hist⟩, h.stays,
    by show (io.style.forced || io.style.tty) = _; rw [hio]; exact h.escapes, h.kept⟩

theorem here_record {s : Stand} {w : W} (h : Here s w) (line : Str) : ∃ x, History.newCommand w.hist line = .ok x ∧ Here { s with book := s.book.record line } (w.entered x) ∧ x.mode = .inserting := by
  obtain ⟨x, a, b, _, c, _⟩ := History.newCommand_ok h.at_.hist line
  obtain ⟨y, d, e⟩ := kept_record h.kept h.at_.hist line
  cases a.symm.trans d
  exact ⟨x, a, ⟨⟨h.at_.tree, h.at_.current, h.at_.root, h.at_.hello, h.at_.color, h.at_.nocolor, h.at_.on, h.at_.left, h.at_.stopped, b⟩, h.stays, h.escapes, e⟩, c⟩

/-- What one line does that is not `!` and a number. -/
theorem plain_line (p : Platform) (fuel : Nat) {s : Stand} {w : W} {l : Str} (h : Here s w) (hh : Readable p l) (hn : ¬ Bang l) :
    (∃ w', Quits s.book l ∧ feed (app p) (fuel + 1) l w = .ok (w', none) ∧ w'.io.out = w.io.out ++ farewell ∧ w'.exit = true ∧ w'.app.stopped = true) ∨
    (∃ w' s' t, feed (app p) (fuel + 1) l w = .ok (w', none) ∧ s.Answer l s' t ∧ Here s' w' ∧ w'.io.out = w.io.out ++ t) := by
  obtain ⟨toks, hl⟩ := Split.line_total l
  by_cases h1 : toks = [bs!"history"]
  · subst h1
    obtain ⟨x, hx, hr, hmode⟩ := here_record h l
    have hf : feed (app p) (fuel + 1) l w = .ok (((w.entered x).note (.builtin .history)).put (HistoryList.render (s.book.record l).listing), none) := by
      rw [feed_eq (app p) hl (by simp), hx]
      rcases scanGlobal_cases (app p) (feed (app p) fuel) [bs!"history"] (by simp) (w.entered x) with ⟨g1, g2⟩ | ⟨_, _, a, ha, _⟩ | ⟨g1, _⟩ | ⟨g1, _⟩ | ⟨g1, g2⟩ | ⟨a, n, g1, _⟩
      · exact absurd .history (g1 .history)
      · cases ha
      · exact absurd g1 (by decide)
      · exact absurd g1 (by decide)
      · simp only [body, g2, historyPart, catchAll, kept_listing hr.kept]
      · cases g1
    exact .inr ⟨_, _, _, hf, .history hl, here_note hr (w.io.put _) _ rfl, rfl⟩
  have hr : ¬ Recalls toks := by
    rintro (e | ⟨a, n, rfl, g1, g2⟩)
    · exact h1 e
    · exact hn ⟨n, a, hl, g1, g2⟩
  have hcl : Clear p toks := by
    rintro a rfl c hc
    exact ((Script.harmless_fine (p := p) hh hl) a (by simp)).1 c hc
  obtain ⟨k', t, w', a1, a2, a3, a4, a5, a6, a7⟩ := answered p fuel h.at_ hl hr hcl
  have rec' : toks ≠ [] → Showcase.Kept (s.book.record l) w'.hist := by
    intro hne
    obtain ⟨y, d, e⟩ := kept_record h.kept h.at_.hist l
    rw [a7 hne] at d
    cases d
    exact e
  cases a1 with
  | blank b =>
    exact .inr ⟨w', s, [], a2, .blank b, ⟨a3, h.stays, a5.trans h.escapes, by rw [a6 (line_same hl b)]; exact h.kept⟩, a4⟩
  | does b d =>
    cases line_same hl b
    by_cases hx : toks = [bs!"exit"]
    · subst hx
      cases d
      refine .inl ⟨w', .exit hl, a2, a4, ?_, ?_⟩
      · rw [a3.left]
      · rw [a3.stopped]
    · exact .inr ⟨w', ⟨k', s.escapes, s.book.record l⟩, t, a2, .does b d hx, ⟨a3, (does_left d hx).trans h.stays, a5.trans h.escapes, rec' (does_not_recalls d).2⟩, a4⟩
  | wrong b n1 n2 n3 =>
    cases line_same hl b
    exact .inr ⟨w', ⟨s.panel, s.escapes, s.book.record l⟩, _, a2, .wrong b n1 n2 n3, ⟨a3, h.stays, a5.trans h.escapes, rec' n1⟩, a4⟩

/-- **What one line does**, if it does not refer to the history through too many lines. -/
theorem line_deep (p : Platform) : ∀ (k fuel : Nat) {s : Stand} {w : W} {l : Str}, Here s w → Within p k s.book l →
    (∃ w', Quits s.book l ∧ feed (app p) (fuel + k + 1) l w = .ok (w', none) ∧ w'.io.out = w.io.out ++ farewell ∧ w'.exit = true ∧ w'.app.stopped = true) ∨
    (Fails s.book l ∧ ∃ u, feed (app p) (fuel + k + 1) l w = .error (.ub u)) ∨
    (∃ w' s' t, ¬ Fails s.book l ∧ feed (app p) (fuel + k + 1) l w = .ok (w', none) ∧ s.Answer l s' t ∧ Here s' w' ∧ w'.io.out = w.io.out ++ t) := by
  intro k
  induction k with
  | zero =>
    intro fuel s w l h hw
    cases hw with
    | plain hh hb => exact (plain_line p fuel h hh hb).imp id fun ⟨w', s', t, e⟩ => .inr ⟨w', s', t, plain_no_fail hb, e⟩
  | succ k ih =>
    intro fuel s w l h hw
    cases hw with
    | plain hh hb => exact (plain_line p (fuel + (k + 1)) h hh hb).imp id fun ⟨w', s', t, e⟩ => .inr ⟨w', s', t, plain_no_fail hb, e⟩
    | @again _ _ _ n hh hn hdeep =>
      have hb : Bang l := ⟨n, hn⟩
      obtain ⟨a, b1, b2, b3⟩ := id hn
      obtain ⟨x, hx, hr, hmode⟩ := here_record h l
      have hf : feed (app p) (fuel + (k + 1) + 1) l w = catchAll (app p) l (body (app p) (feed (app p) (fuel + (k + 1))) l [bs!"!", a] (w.entered x)) := by
        rw [feed_eq (app p) b1 (by simp), hx]
      rw [hf]
      simp only [body, scanGlobal_bang (app p) (feed (app p) (fuel + (k + 1))) (w.entered x) b2 b3]
      by_cases hroom : (s.book.record l).entries = []
      · refine .inr (.inl ⟨.empty hb (.inl hroom), .emptyContainer, ?_⟩)
        have : (w.entered x).hist.buffer = [] := by rw [hr.kept.entries]; simp [hroom]
        simp only [bangPart, History.forgetLatest, this, catchAll]
      · obtain ⟨y, f1, f2⟩ := kept_forget hr.kept hroom
        have f2 : Showcase.Kept (skipped s.book l) y := f2
        have hyw := (History.forget_wf hr.at_.hist hmode f1).1
        have hat : Here { s with book := skipped s.book l } { (w.entered x).note (.builtin (.bang n)) with hist := y } :=
          ⟨⟨h.at_.tree, h.at_.current, h.at_.root, h.at_.hello, h.at_.color, h.at_.nocolor, h.at_.on, h.at_.left, h.at_.stopped, hyw⟩, h.stays, h.escapes, f2⟩
        simp only [bangPart, f1]
        by_cases he : (skipped s.book l).first = 0 ∧ (skipped s.book l).entries = []
        · refine .inr (.inl ⟨.empty hb (.inr he), .outOfRange, ?_⟩)
          have i1 : y.idOfOldest = 0 := f2.first.trans he.1
          have i2 : y.buffer = [] := by rw [f2.entries, he.2]; rfl
          have e : History.idToIndex y n = some (History.wsub (2 ^ 64 - 1) n) := by
            simp only [History.idToIndex, i1, i2, List.length_nil]
            rw [if_neg (by simp [History.wsub]; omega)]
            rfl
          simp only [History.at, e, i2, List.getElem?_nil, catchAll]
        · have hne : y.idOfOldest + y.buffer.length ≠ 0 := by
            rw [f2.first, f2.entries, List.length_reverse]
            intro hz
            exact he ⟨by omega, List.length_eq_zero_iff.1 (by omega)⟩
          by_cases hc : ∃ c, (n, c) ∈ (skipped s.book l).listing
          · obtain ⟨c, hc⟩ := hc
            rw [(History.at_listing y hne n c).2 (by rw [kept_listing f2]; exact hc)]
            have ih' := ih fuel hat (hdeep c hc)
            rw [show fuel + k + 1 = fuel + (k + 1) from rfl] at ih'
            simp only
            rcases ih' with ⟨w', e1, e2, e3⟩ | ⟨e1, u, e2⟩ | ⟨w', s', t, e1, e2, e3, e4, e5⟩
            · rw [e2]
              exact .inl ⟨w', .again hn hc e1, rfl, e3⟩
            · exact .inr (.inl ⟨.again hn hc e1, u, by simp only [e2, catchAll]⟩)
            · rw [e2]
              refine .inr (.inr ⟨w', s', t, fun hf => ?_, rfl, .again hn hc e3, e4, e5⟩)
              cases hf with
              | again h1 h2 h3 =>
                cases recalls_same hn h1
                cases listing_same hc h2
                exact e1 h3
              | empty _ h => exact h.elim hroom he
          · have hc : ∀ c, (n, c) ∉ (skipped s.book l).listing := fun c h => hc ⟨c, h⟩
            rw [(History.at_none y hne n).2 (by rw [kept_listing f2]; exact hc)]
            refine .inr (.inr ⟨_, _, _, fun hf => ?_, rfl, .unknown hn hc, ?_, ?_⟩)
            · cases hf with
              | again h1 h2 h3 =>
                cases recalls_same hn h1
                exact hc _ h2
              | empty _ h => exact h.elim hroom he
            · exact here_note hat (w.io.put _) _ rfl
            · simp only [reportException, app, World.effect, World.note, List.foldl_cons, List.foldl_nil, World.act, World.put, Io.put, Exn.what]
              simp
              rfl

theorem line_step (p : Platform) (fuel : Nat) {s : Stand} {w : W} {l : Str} (h : Here s w) (hw : Within p fuel s.book l) :
    (∃ w', Quits s.book l ∧ feed (app p) (fuel + 1) l w = .ok (w', none) ∧ w'.io.out = w.io.out ++ farewell ∧ w'.exit = true ∧ w'.app.stopped = true) ∨
    (Fails s.book l ∧ ∃ u, feed (app p) (fuel + 1) l w = .error (.ub u)) ∨
    (∃ w' s' t, ¬ Fails s.book l ∧ feed (app p) (fuel + 1) l w = .ok (w', none) ∧ s.Answer l s' t ∧ Here s' w' ∧ w'.io.out = w.io.out ++ t) := by
  have deep := line_deep p fuel 0 h hw
  rwa [Nat.zero_add] at deep

theorem prompt_here {s : Stand} {w : W} (h : Here s w) : ∃ w', prompt w = .ok w' ∧ Here s.prompted w' ∧ w'.io.out = w.io.out ++ s.prompt := by
  have e : w.tree.locate w.current = some [(tree.root, tree.kids)] := by rw [h.at_.tree, h.at_.current]; rfl
  have e2 : tree.root.prompt = bs!"cli" := rfl
  have hx : w.exit = false := h.at_.left.trans h.stays
  have e3 : decimal 32 = bs!"32" := by decide +kernel
  have e4 : decimal 1 = bs!"1" := by decide +kernel
  have e5 : decimal 0 = bs!"0" := by decide +kernel
  refine ⟨{ w with io := (((w.io.beforePrompt).put tree.root.prompt).afterPrompt).put bs!"> " }, by simp only [prompt, hx, Bool.false_eq_true, if_false, e],
    ⟨⟨h.at_.tree, h.at_.current, h.at_.root, h.at_.hello, h.at_.color, h.at_.nocolor, ?_, h.at_.left, h.at_.stopped, h.at_.hist⟩, h.stays, ?_, h.kept⟩, ?_⟩
  all_goals
    have hc := h.at_.on
    have hx := h.escapes
    unfold Stand.prompted at *
    revert hc hx
    obtain ⟨⟨c, t, f⟩, out⟩ := w.io
    intro hc hx
    simp only at hc hx
    simp only [Stand.prompt, ← hc, ← hx]
    cases c <;> cases t <;> cases f <;> simp [Io.beforePrompt, Io.afterPrompt, Io.put, Io.force, Io.sgr, e2, e3, e4, e5]

/-! ### Typing -/

theorem here_io {s : Stand} {w : W} (h : Here s w) (io : Io) (h1 : io.style.color = w.io.style.color) (h2 : (io.style.forced || io.style.tty) = (w.io.style.forced || w.io.style.tty)) : Here s { w with io := io } :=
  ⟨⟨h.at_.tree, h.at_.current, h.at_.root, h.at_.hello, h.at_.color, h.at_.nocolor, h1.trans h.at_.on, h.at_.left, h.at_.stopped, h.at_.hist⟩, h.stays, h2.trans h.escapes, h.kept⟩

theorem key_here (p : Platform) {s : Stand} {w : W} {l : Str} {c : Byte} (fuel : Nat) (h : Here s w) (hp : s.prompted = s) (hc : printable c = true) :
    ∃ w', Processor.keypressed (app p) fuel ⟨w, ⟨l, l.length⟩, true⟩ (.ascii c) = .ok (⟨w', ⟨l ++ [c], (l ++ [c]).length⟩, true⟩, none) ∧ Here s w' ∧ w'.io.out = w.io.out ++ s.echo c := by
  have hn : c ≠ b%'\t' := by rintro rfl; simp [printable] at hc
  have e97 : decimal 97 = bs!"97" := by decide +kernel
  have e0 : decimal 0 = bs!"0" := by decide +kernel
  have hio : ∃ io, Terminal.keypressed ⟨l, l.length⟩ w.io (.ascii c) = .ok (⟨l ++ [c], (l ++ [c]).length⟩, io, .nothing) ∧ io.style.color = w.io.style.color ∧ (io.style.forced || io.style.tty) = (w.io.style.forced || w.io.style.tty) ∧
      io.out = w.io.out ++ s.echo c := by
    have hcol := h.at_.on
    have hesc := h.escapes
    have hpe : (s.panel.on || s.escapes) = s.escapes := congrArg Stand.escapes hp
    simp only [Terminal.keypressed, hn, if_false]
    simp only [Terminal.suffix, Terminal.repSub, Terminal.insertAt, bind, Except.bind]
    revert hcol hesc
    obtain ⟨⟨col, tty, f⟩, out⟩ := w.io
    intro hcol hesc
    simp only at hcol hesc
    rw [← hcol, ← hesc] at hpe
    simp [Stand.echo, ← hcol, ← hesc]
    cases col <;> cases tty <;> cases f <;> simp_all [Io.beforeInput, Io.afterInput, Io.put, Io.force, Io.sgr, Terminal.rep]
  obtain ⟨io, h1, h2, h3, h4⟩ := hio
  refine ⟨{ w with io := io }, ?_, here_io h io h2 h3, h4⟩
  simp only [Processor.keypressed, h1, bind, Except.bind, Processor.newCommand]

theorem typing_here (p : Platform) (fuel : Nat) : ∀ (cs : Str) (l : Str) {s : Stand} {w : W}, Here s w → s.prompted = s → Printable cs →
    ∃ w', Processor.run (app p) fuel (cs.map Key.ascii) ⟨w, ⟨l, l.length⟩, true⟩ = .ok (⟨w', ⟨l ++ cs, (l ++ cs).length⟩, true⟩, none) ∧ Here s w' ∧ w'.io.out = w.io.out ++ s.echoes cs
  | [], l, s, w, h, _, _ => ⟨w, by simp [Processor.run], h, by simp [Stand.echoes]⟩
  | c :: cs, l, s, w, h, hp, hc => by
    obtain ⟨w1, h1, h2, h3⟩ := key_here p (l := l) fuel h hp (hc c (by simp))
    obtain ⟨w2, g1, g2, g3⟩ := typing_here p fuel cs (l ++ [c]) h2 hp (fun d hd => hc d (by simp [hd]))
    refine ⟨w2, ?_, g2, ?_⟩
    · simp only [List.map_cons, Processor.run, h1, bind, Except.bind]
      rw [g1]
      simp
    · rw [g3, h3]; simp [Stand.echoes]

/-- A line, with Enter. -/
theorem line_here (p : Platform) (fuel : Nat) {s : Stand} {w : W} {l : Str} (h : Here s w) (hp : s.prompted = s) (hl : Printable l) :
    ∃ w1, Here s w1 ∧ w1.io.out = w.io.out ++ s.echoes l ++ bs!"\r\n" ∧
      Processor.run (app p) fuel ((l ++ bs!"\n").map keyOf) ⟨w, ⟨[], 0⟩, true⟩ = enterLine (app p) fuel l w1 := by
  obtain ⟨w1, h1, h2, h3⟩ := typing_here p fuel l [] h hp hl
  refine ⟨{ w1 with io := w1.io.put bs!"\r\n" }, here_io h2 _ rfl rfl, by simp [Io.put, h3], ?_⟩
  rw [List.map_append, keys_printable hl, Props.proc_run_append]
  simp only [List.length_nil] at h1
  rw [h1]
  simp only [List.nil_append, enterLine, List.map_cons, List.map_nil, keyOf, if_true, Processor.run, Processor.keypressed, Terminal.keypressed, Processor.newCommand, bind, Except.bind]
  rcases feed (app p) fuel l { w1 with io := w1.io.put bs!"\r\n" } with f | ⟨w2, _ | e⟩
  · rfl
  · simp only
    cases prompt w2 <;> rfl
  · rfl

theorem scene_line {s s' : Stand} {l t b o : Str} (hp : Printable l) (hl : s.Answer l s' t) (h : Scene s'.prompted b o) :
    Scene s (l ++ bs!"\n" ++ b) (s.echoes l ++ bs!"\r\n" ++ t ++ s'.prompt ++ o) := by
  have hall : ∀ {ls : List Str}, (∀ x ∈ ls, Printable x) → ∀ x ∈ l :: ls, Printable x := by
    intro ls h x hx
    rcases List.mem_cons.1 hx with rfl | hx
    · exact hp
    · exact h x hx
  cases h with
  | @typing ls s2 o2 k d p1 p2 =>
    have := Scene.typing (.line hl d) (hall p1) p2
    simpa [enter] using this
  | @over ls s2 o2 k d p1 p2 x =>
    have := Scene.over (.line hl d) (hall p1) p2 x
    simpa [enter] using this

theorem play_tail {p : Platform} {fuel : Nat} {s s' : Stand} {l x t : Str} {ls : List Str} (h : Play p fuel s (l :: ls) x) (ha : s.Answer l s' t) : Play p fuel s'.prompted ls x :=
  ⟨fun k hk => h.lines k (by simp only [List.cons_append, List.mem_cons]; exact .inr hk), fun a k c s2 o e d => h.fine (l :: a) k c s2 _ (by rw [e]; rfl) (.line ha d), fun s2 o d => h.last s2 _ (.line ha d)⟩

theorem play_here (p : Platform) (fuel : Nat) {x : Str} : ∀ (ls : List Str) {s : Stand} {w : W}, Here s w → s.prompted = s → Play p fuel s ls x → ∀ b, b <+: enter (ls ++ [x]) →
    ∃ q o, Processor.run (app p) (fuel + 1) (b.map keyOf) ⟨w, ⟨[], 0⟩, true⟩ = .ok (q, none) ∧ Scene s b o ∧ q.w.io.out = w.io.out ++ o ∧ (q.w.app.stopped = true ↔ b = enter (ls ++ [x]))
  | [], s, w, h, hp, hpl, b, hb => by
    have px := hpl.lines x (by simp)
    obtain ⟨hx, hwx⟩ := hpl.last s [] .nil
    rcases prefix_line (x := []) (by simpa [enter] using hb) with hb | ⟨m, rfl, hm⟩
    · have pb : Printable b := fun c hc => px c (hb.subset hc)
      obtain ⟨w1, h1, h2, h3⟩ := typing_here p (fuel + 1) b [] h hp pb
      have ne : b ≠ enter ([] ++ [x]) := by
        rintro rfl
        have := hb.length_le
        simp [enter] at this
        omega
      refine ⟨_, s.echoes b, by rw [keys_printable pb]; exact h1, by simpa [enter] using Scene.typing (s := s) .nil (by simp) pb, h3, ?_⟩
      simp only [h2.at_.stopped, h2.stays, ne]; simp
    · rw [List.prefix_nil] at hm
      subst hm
      obtain ⟨w1, h1, h2, h3⟩ := line_here p (fuel + 1) h hp px
      rcases line_step p fuel h1 hwx with ⟨w2, e1, e2, e3, e4, e5⟩ | ⟨e1, _⟩ | ⟨_, _, _, _, _, e1, _⟩
      · have hr : enterLine (app p) (fuel + 1) x w1 = .ok (⟨w2, ⟨[], 0⟩, true⟩, none) := by simp only [enterLine, e2, prompt, e4, if_true]
        refine ⟨_, s.echoes x ++ bs!"\r\n" ++ farewell, by rw [List.append_nil, h3]; exact hr, ?_, ?_, ?_⟩
        · simpa [enter] using Scene.over (s := s) .nil (by simp) px hx
        · rw [e3, h2]; simp
        · simp [e5, enter]
      · exact (fails_no_quits e1 hx).elim
      · exact (stand_no_quit hx rfl e1).elim
  | l :: ls, s, w, h, hp, hpl, b, hb => by
    have pl := hpl.lines l (by simp)
    obtain ⟨nf, nq, hw⟩ := hpl.fine [] l ls s [] rfl .nil
    have hb' : b <+: l ++ bs!"\n" ++ enter (ls ++ [x]) := by simpa [enter] using hb
    rcases prefix_line hb' with hb | ⟨m, rfl, hm⟩
    · have pb : Printable b := fun c hc => pl c (hb.subset hc)
      obtain ⟨w1, h1, h2, h3⟩ := typing_here p (fuel + 1) b [] h hp pb
      have ne : b ≠ enter (l :: ls ++ [x]) := by
        rintro rfl
        have := hb.length_le
        simp [enter] at this
        omega
      refine ⟨_, s.echoes b, by rw [keys_printable pb]; exact h1, by simpa [enter] using Scene.typing (s := s) .nil (by simp) pb, h3, ?_⟩
      simp only [h2.at_.stopped, h2.stays, ne]; simp
    · obtain ⟨w1, h1, h2, h3⟩ := line_here p (fuel + 1) h hp pl
      rcases line_step p fuel h1 hw with ⟨w2, e1, _⟩ | ⟨e1, _⟩ | ⟨w2, s2, t, _, e3, e4, e5, e6⟩
      · exact absurd e1 nq
      · exact absurd e1 nf
      · obtain ⟨w3, p1, p2, p3⟩ := prompt_here e5
        have hr : enterLine (app p) (fuel + 1) l w1 = .ok (⟨w3, ⟨[], 0⟩, true⟩, none) := by simp only [enterLine, e3, p1]
        obtain ⟨q, o, g1, g2, g3, g4⟩ := play_here p fuel ls p2 (stand_prompted _) (play_tail hpl e4) m hm
        have hiff : (l ++ bs!"\n" ++ m = enter (l :: ls ++ [x])) ↔ m = enter (ls ++ [x]) := by
          rw [show enter (l :: ls ++ [x]) = l ++ bs!"\n" ++ enter (ls ++ [x]) by simp [enter]]
          exact List.append_right_inj _
        refine ⟨q, _, ?_, scene_line pl e4 g2, ?_, by rw [hiff]; exact g4⟩
        · rw [List.map_append, Props.proc_run_append, h3, hr]
          exact g1
        · rw [g3, p3, e6, h2]; simp

/-! ### The program -/

theorem here_created {p : Platform} {manual : α → α} {tt : α} {tty : Bool} {l : Local.St Iface Storage.Volatile α} (h0 : interface p manual tt tty = .ok (l, none)) :
    ∃ w, l.proc = ⟨w, ⟨[], 0⟩, true⟩ ∧ Here (Stand.start tty) w ∧ w.io.out = (Stand.start tty).prompt := by
  obtain ⟨s, h1, h2, h3⟩ := C128_start p manual tt tty
  cases h1.symm.trans h0
  refine ⟨l.proc.w, ?_, ⟨h2, rfl, ?_, ?_⟩, ?_⟩
  · cases h0; rfl
  · cases h0; cases tty <;> rfl
  · cases h0; exact kept_start 200 []
  · rw [h3]; cases tty <;> rfl

theorem start_prompted (tty : Bool) : (Stand.start tty).prompted = Stand.start tty := by cases tty <;> rfl

section
variable {fuel : Nat} {p : Platform} {manual : α → α} {tt : α} {tty : Bool} {l : Local.St Iface Storage.Volatile α} {ls : List Str} {x : Str}

theorem play_shown (h : Play p fuel (Stand.start tty) ls x) (h0 : interface p manual tt tty = .ok (l, none)) (b : Str) (hb : b <+: enter (ls ++ [x])) :
    ∃ q o, Processor.run (app p) (fuel + 1) (b.map keyOf) l.proc = .ok (q, none) ∧ Scene (Stand.start tty) b o ∧ q.w.io.out = (Stand.start tty).prompt ++ o ∧ (q.w.app.stopped = true ↔ b = enter (ls ++ [x])) := by
  obtain ⟨w, h1, h2, h3⟩ := here_created h0
  obtain ⟨q, o, g1, g2, g3, g4⟩ := play_here p fuel ls h2 (start_prompted tty) h b hb
  exact ⟨q, o, by rw [h1]; exact g1, g2, by rw [g3, h3], g4⟩

theorem kiosk_goes (h : Play p fuel (Stand.start tty) ls x) (h0 : interface p manual tt tty = .ok (l, none)) : Goes (app p) (·.stopped) (fuel + 1) l.proc (enter (ls ++ [x])) := by
  intro b hb
  obtain ⟨q, o, g1, _, _, g4⟩ := play_shown h h0 b hb
  exact ⟨q, g1, g4⟩

/-- What is known of the program at any time. -/
theorem kiosk_at (h : Play p fuel (Stand.start tty) ls x) (h0 : interface p manual tt tty = .ok (l, none)) {own : List Str} {es : List (Ev α)} {t : St Iface Storage.Volatile α} {rest : Str} (hc : ∀ e ∈ others es, Props.Calm e)
    (ht : Props.Program.typed (others es) <+: enter (ls ++ [x]) ++ rest) (hr : run (app p) (·.stopped) (fuel + 1) p manual es ⟨⟨l, .run⟩, own⟩ = .ok (some (t, none))) :
    ∃ s texts o, Near texts s t.prog ∧ (texts ++ t.own).Perm own ∧ InTurn (app p) (·.stopped) (fuel + 1) p l.proc (Props.Program.typed (others es)) s ∧ s.loc.handled ≤ (enter (ls ++ [x])).length ∧
      (s.loc.proc.w.app.stopped = true ↔ s.loc.handled = (enter (ls ++ [x])).length) ∧ (enter (ls ++ [x])).take s.loc.handled <+: Props.Program.typed (others es) ∧
      Scene (Stand.start tty) ((enter (ls ++ [x])).take s.loc.handled) o ∧ s.loc.proc.w.io.out = (Stand.start tty).prompt ++ o := by
  have k := shared_run (app p) (·.stopped) (fuel + 1) p manual es (near_refl (St.mk ⟨l, .run⟩ own).prog)
  rw [hr] at k
  obtain ⟨s, texts, k1, k2, k3⟩ := k
  have g := inTurn_run (others es) (inTurn_create (stopped := (·.stopped)) (fuel := fuel + 1) (p := p) h0) hc k1
  rw [List.nil_append] at g
  have hb := plainly_enter h.lines
  obtain ⟨j1, j2, j3, j4⟩ := goes_handled hb ht (kiosk_goes h h0) g
  obtain ⟨q, o, g1, g2, g3, g4⟩ := play_shown h h0 _ (List.take_prefix s.loc.handled _)
  rw [j3] at g1
  cases g1
  exact ⟨s, texts, o, by simpa using k2, k3, g, j1, j4, handled_typed hb ht g, g2, g3⟩

theorem taken {b : Str} {n : Nat} (h : n = b.length) : b.take n = b := by rw [h, List.take_length]

end

/-- **C134** (partial) At any time, whatever the order in which the threads take their steps, the characters are typed and the application's own functions (the timer) are executed: the stream has got the prompt and what belongs to some of the
    characters typed, those that have been handled, with the texts of the functions that have been executed between, each of them whole. `run` is left when the last line, which ends the session, has been handled, and nothing typed after it is.
    Missing: lines for which the behaviour is undefined (`C134_refuted`); other keys than characters and Enter (before the end of the session). -/
theorem C134_screen_partial (fuel : Nat) (p : Platform) (manual : α → α) (tt : α) (tty : Bool) (l : Local.St Iface Storage.Volatile α) (own : List Str) (es : List (Ev α)) (t : St Iface Storage.Volatile α) (ls : List Str) (x rest : Str)
    (h : Play p fuel (Stand.start tty) ls x) (h0 : interface p manual tt tty = .ok (l, none)) (hc : ∀ e ∈ others es, Props.Calm e) (ht : Props.Program.typed (others es) <+: enter (ls ++ [x]) ++ rest)
    (hr : run (app p) (·.stopped) (fuel + 1) p manual es ⟨⟨l, .run⟩, own⟩ = .ok (some (t, none))) :
    ∃ b o texts, b <+: Props.Program.typed (others es) ∧ b <+: enter (ls ++ [x]) ∧ Scene (Stand.start tty) b o ∧ Between ((Stand.start tty).prompt ++ o) texts t.prog.loc.proc.w.io.out ∧ (texts ++ t.own).Perm own ∧
      (t.prog.phase ≠ .run → b = enter (ls ++ [x])) ∧ (t.prog.loc.proc.w.app.stopped = true ↔ b = enter (ls ++ [x])) := by
  obtain ⟨s, texts, o, k1, k2, k3, k4, k5, k6, k7, k8⟩ := kiosk_at h h0 hc ht hr
  have hsame := near_same k1
  have hst : s.loc.proc.w.app.stopped = true ↔ (enter (ls ++ [x])).take s.loc.handled = enter (ls ++ [x]) := by
    rw [k5]
    refine ⟨taken, fun e => ?_⟩
    have := congrArg List.length e
    rw [List.length_take] at this
    omega
  refine ⟨_, o, texts, k6, List.take_prefix _ _, k7, by rw [← k8]; exact hsame.out, k2, fun hp => ?_, by rw [k1.app]; exact hst⟩
  exact hst.1 (k3.after (by rw [← k1.phase]; exact hp)).1

/-- **C134** (partial) Nothing goes wrong: the behaviour is defined, and no exception leaves `run`. -/
theorem C134_defined_partial (fuel : Nat) (p : Platform) (manual : α → α) (tt : α) (tty : Bool) (l : Local.St Iface Storage.Volatile α) (own : List Str) (es : List (Ev α)) (ls : List Str) (x rest : Str)
    (h : Play p fuel (Stand.start tty) ls x) (h0 : interface p manual tt tty = .ok (l, none)) (hc : ∀ e ∈ others es, Props.Calm e) (ht : Props.Program.typed (others es) <+: enter (ls ++ [x]) ++ rest) :
    run (app p) (·.stopped) (fuel + 1) p manual es ⟨⟨l, .run⟩, own⟩ = .ok none ∨ ∃ t, run (app p) (·.stopped) (fuel + 1) p manual es ⟨⟨l, .run⟩, own⟩ = .ok (some (t, none)) := by
  have hg := goes_run (manual := manual) (p := p) (rest := rest) (plainly_enter h.lines) (kiosk_goes h h0) (others es) (inTurn_create h0) hc (by rw [List.nil_append]; exact ht)
  have k := shared_run (app p) (·.stopped) (fuel + 1) p manual es (near_refl (St.mk ⟨l, .run⟩ own).prog)
  match hrun : run (app p) (·.stopped) (fuel + 1) p manual es ⟨⟨l, .run⟩, own⟩ with
  | .error f =>
    rw [hrun] at k
    rcases hg with hg | ⟨s, hg⟩ <;> cases hg.symm.trans k
  | .ok none => exact .inl rfl
  | .ok (some (t, none)) => exact .inr ⟨t, rfl⟩
  | .ok (some (t, some e)) =>
    rw [hrun] at k
    obtain ⟨s, texts, k1, _⟩ := k
    rcases hg with hg | ⟨s, hg⟩ <;> cases hg.symm.trans k1

/-- **C134** (partial) When neither thread can do anything more and no function of the application is left that could be executed: the program waits for input, all of these functions have been executed, and the stream has got everything
    typed, the answers, and the texts of the functions between; or the program is over, and the stream has got all of the lines, the answers, the farewell and some of those texts between; or this is so but for the end of the program, which
    waits for the rest of half an escape sequence that has been typed after the end of the session. -/
theorem C134_rest_partial (fuel : Nat) (p : Platform) (manual : α → α) (tt : α) (tty : Bool) (l : Local.St Iface Storage.Volatile α) (own : List Str) (es : List (Ev α)) (t : St Iface Storage.Volatile α) (ls : List Str) (x rest : Str)
    (h : Play p fuel (Stand.start tty) ls x) (h0 : interface p manual tt tty = .ok (l, none)) (hc : ∀ e ∈ others es, Props.Calm e) (ht : Props.Program.typed (others es) <+: enter (ls ++ [x]) ++ rest)
    (hr : run (app p) (·.stopped) (fuel + 1) p manual es ⟨⟨l, .run⟩, own⟩ = .ok (some (t, none)))
    (hq : ∀ e, Moves e → step (app p) (·.stopped) (fuel + 1) p manual t (.prog e) = .ok none) (hq' : ∀ i, step (app p) (·.stopped) (fuel + 1) p manual t (.own i) = .ok none) :
    ∃ o texts, Between ((Stand.start tty).prompt ++ o) texts t.prog.loc.proc.w.io.out ∧ (texts ++ t.own).Perm own ∧
      ((t.prog.phase = .run ∧ t.own = [] ∧ Props.Program.typed (others es) <+: enter (ls ++ [x]) ∧ Props.Program.typed (others es) ≠ enter (ls ++ [x]) ∧ Scene (Stand.start tty) (Props.Program.typed (others es)) o) ∨
       (t.prog.phase = .over ∧ enter (ls ++ [x]) <+: Props.Program.typed (others es) ∧ Scene (Stand.start tty) (enter (ls ++ [x])) o) ∨
       (t.prog.phase = .joining ∧ enter (ls ++ [x]) <+: Props.Program.typed (others es) ∧ Scene (Stand.start tty) (enter (ls ++ [x])) o ∧ (decode p .first (Props.Program.typed (others es))).1 ≠ .first)) := by
  obtain ⟨s, texts, o, k1, k2, g, k4, k5, hty, g2, k8⟩ := kiosk_at h h0 hc ht hr
  have hb := plainly_enter h.lines
  have hqs : ∀ e, Moves e → Program.step (app p) (·.stopped) (fuel + 1) p manual s e = .ok none := by
    intro e he
    have h1 := hq e he
    have h2 := near_step (app p) (·.stopped) (fuel + 1) p manual k1 e
    simp only [step] at h1
    revert h1 h2
    generalize Program.step (app p) (·.stopped) (fuel + 1) p manual s e = a
    generalize Program.step (app p) (·.stopped) (fuel + 1) p manual t.prog e = b
    intro h1 h2
    cases h2 with
    | fault f => cases h1
    | none => rfl
    | some y k => cases h1
  refine ⟨o, texts, by rw [← k8]; exact (near_same k1).out, k2, ?_⟩
  rw [k1.phase]
  rcases program_rest _ _ _ p manual _ _ s g hqs with h1 | ⟨h1, h2, h3, h4⟩ | ⟨h1, h2⟩
  · have e := taken (k5.1 (g.after (by rw [h1]; simp)).1)
    rw [e] at hty g2
    exact .inr (.inl ⟨h1, hty, g2⟩)
  · have hlt : s.loc.handled < (enter (ls ++ [x])).length := by
      rcases Nat.lt_or_ge s.loc.handled (enter (ls ++ [x])).length with hlt | hge
      · exact hlt
      · have := k5.2 (by omega)
        rw [h2] at this; cases this
    have hpre : Props.Program.typed (others es) <+: enter (ls ++ [x]) := by
      rcases Nat.le_total (Props.Program.typed (others es)).length (enter (ls ++ [x])).length with hle | hle
      · exact List.prefix_of_prefix_length_le ht (List.prefix_append _ _) hle
      · obtain ⟨u, htt⟩ := List.prefix_of_prefix_length_le (List.prefix_append _ _) ht hle
        have := congrArg List.length h4
        rw [← htt, Props.decode_append, decode_plainly p _ hb] at this
        simp only [List.length_append, List.length_map] at this
        omega
    have hlen : s.loc.handled = (Props.Program.typed (others es)).length := by
      rw [h3, h4, decode_plainly p _ (fun c hc => hb c (hpre.subset hc)), List.length_map]
    have e : (enter (ls ++ [x])).take s.loc.handled = Props.Program.typed (others es) := by
      obtain ⟨u, htt⟩ := hpre
      rw [← htt, hlen, List.take_left]
    rw [e] at g2
    have hbusy : s.loc.busy = false := by
      cases hbz : s.loc.busy with
      | false => rfl
      | true =>
        have := hqs .done trivial
        simp [Program.step, h1, Program.step.lift, Local.step, hbz, Keyboard.step] at this
    refine .inl ⟨h1, ?_, hpre, fun hx => ?_, g2⟩
    · have := hq' 0
      simp only [step] at this
      rw [if_pos ⟨by rw [k1.phase]; exact h1, by rw [k1.busy]; exact hbusy, by rw [k1.app]; exact h2⟩] at this
      cases ho : t.own with
      | nil => rfl
      | cons a b => rw [ho] at this; cases this
    · rw [hlen, hx] at hlt
      omega
  · have e := taken (k5.1 (g.after (by rw [h1]; simp)).1)
    rw [e] at hty g2
    exact .inr (.inr ⟨h1, hty, g2, h2⟩)

theorem between_none {a c : Str} {ts : List Str} (h : Between a ts c) (hn : ts = []) : c = a := by
  induction h with
  | nil => rfl
  | same _ s ih => rw [ih hn]
  | text _ t _ => simp at hn

theorem between_one {a c : Str} {ts : List Str} (h : Between a ts c) {t : Str} (hn : ts = [t]) : ∃ u v, a = u ++ v ∧ c = u ++ t ++ v := by
  induction h with
  | nil => cases hn
  | same _ s ih =>
    obtain ⟨u, v, rfl, rfl⟩ := ih hn
    exact ⟨u, v ++ s, by simp, by simp⟩
  | @text a ts c h t' _ =>
    have : ts = [] ∧ t' = t := by
      cases ts with
      | nil => exact ⟨rfl, by simpa using hn⟩
      | cons y ys => simp at hn
    obtain ⟨rfl, rfl⟩ := this
    rw [between_none h rfl]
    exact ⟨a, [], by simp, by simp⟩

/-- **C134** (partial) In the examples: either the timer has not expired and the stream has got just that, or it has, and its text is at one place of it. -/
theorem C134_timer_partial (fuel : Nat) (p : Platform) (manual : α → α) (tt : α) (tty : Bool) (l : Local.St Iface Storage.Volatile α) (es : List (Ev α)) (t : St Iface Storage.Volatile α) (ls : List Str) (x rest : Str)
    (h : Play p fuel (Stand.start tty) ls x) (h0 : interface p manual tt tty = .ok (l, none)) (hc : ∀ e ∈ others es, Props.Calm e) (ht : Props.Program.typed (others es) <+: enter (ls ++ [x]) ++ rest)
    (hr : run (app p) (·.stopped) (fuel + 1) p manual es ⟨⟨l, .run⟩, timer⟩ = .ok (some (t, none))) :
    ∃ b o, b <+: Props.Program.typed (others es) ∧ b <+: enter (ls ++ [x]) ∧ Scene (Stand.start tty) b o ∧
      ((t.own = timer ∧ t.prog.loc.proc.w.io.out = (Stand.start tty).prompt ++ o) ∨ (t.own = [] ∧ ∃ u v, (Stand.start tty).prompt ++ o = u ++ v ∧ t.prog.loc.proc.w.io.out = u ++ bs!"Timer expired!\n" ++ v)) := by
  obtain ⟨b, o, texts, g1, g2, g3, g4, g5, _⟩ := C134_screen_partial fuel p manual tt tty l timer es t ls x rest h h0 hc ht hr
  refine ⟨b, o, g1, g2, g3, ?_⟩
  have he := List.perm_singleton.1 g5
  cases texts with
  | nil => exact .inl ⟨he, between_none g4 rfl⟩
  | cons y ys =>
    rw [List.cons_append] at he
    injection he with e1 e2
    obtain ⟨rfl, e3⟩ := List.append_eq_nil_iff.1 e2
    exact .inr ⟨e3, by rw [← e1]; exact between_one g4 rfl⟩

/-- **C134** A line whose behaviour should be undefined leads to undefined behaviour in the model: it is not the case that such lines are excluded for nothing. -/
theorem C134_undefined (p : Platform) (fuel : Nat) {s : Stand} {w : W} {l : Str} (h : Here s w) (hf : Fails s.book l) (hw : Within p fuel s.book l) (hp : s.prompted = s) (hl : Printable l) :
    ∃ u, Processor.run (app p) (fuel + 1) ((l ++ bs!"\n").map keyOf) ⟨w, ⟨[], 0⟩, true⟩ = .error (.ub u) := by
  obtain ⟨w1, h1, h2, h3⟩ := line_here p (fuel + 1) h hp hl
  rw [h3]
  rcases line_step p fuel h1 hw with ⟨_, e, _⟩ | ⟨_, u, e⟩ | ⟨w', s', t, e, _⟩
  · exact (fails_no_quits hf e).elim
  · exact ⟨u, by simp only [enterLine, e]⟩
  · exact absurd hf e

/-- What it comes to, with the fault if there is one. -/
def outcome (es : List (Ev Bool)) : Option Fault :=
  match opened with
  | none => none
  | some s =>
    match run (app Props.plat) (·.stopped) 2 Props.plat (fun _ => false) es s with
    | .error f => some f
    | _ => none

/-- **C134** (refuted) `! 0`, if it is the first line, has undefined behaviour. -/
theorem C134_refuted : outcome ((bs!"! 0\n").flatMap stroke) = some (.ub .outOfRange) := by decide +kernel

/-! ### Examples -/

theorem play_cons {p : Platform} {fuel : Nat} {s s' : Stand} {l x t : Str} {ls : List Str} (hp : Printable l) (ha : s.Answer l s' t) (hf : ¬ Fails s.book l) (hw : Within p fuel s.book l) (h : Play p fuel s'.prompted ls x) :
    Play p fuel s (l :: ls) x := by
  refine ⟨?_, ?_, ?_⟩
  · intro k hk
    rcases List.mem_cons.1 hk with rfl | hk
    · exact hp
    · exact h.lines k hk
  · intro a k c s2 o e d
    cases a with
    | nil =>
      cases d
      simp only [List.nil_append, List.cons.injEq] at e
      obtain ⟨rfl, rfl⟩ := e
      exact ⟨hf, fun hq => stand_no_quit hq rfl ha, hw⟩
    | cons y a =>
      simp only [List.cons_append, List.cons.injEq] at e
      obtain ⟨rfl, e⟩ := e
      cases d with
      | line d1 d2 =>
        obtain ⟨rfl, rfl⟩ := stand_unique ha d1
        exact h.fine a k c s2 _ e d2
  · intro s2 o d
    cases d with
    | line d1 d2 =>
      obtain ⟨rfl, rfl⟩ := stand_unique ha d1
      exact h.last s2 _ d2

theorem play_end {p : Platform} {fuel : Nat} {s : Stand} {x : Str} (hp : Printable x) (hq : Quits s.book x) (hw : Within p fuel s.book x) : Play p fuel s [] x := by
  refine ⟨?_, ?_, ?_⟩
  · intro k hk
    rw [List.nil_append, List.mem_singleton] at hk
    subst hk
    exact hp
  · intro a k c s2 o e
    cases a <;> cases e
  · intro s2 o d
    cases d
    exact ⟨hq, hw⟩

theorem not_bang {l : Str} {toks : List Str} (hl : Lex.Line l toks) (hn : toks.head? ≠ some bs!"!") : ¬ Bang l := by
  rintro ⟨n, a, h, _⟩
  cases line_same hl h
  exact hn rfl

/-- Colours are switched on; the same line again is wrong, as the command is disabled then. -/
theorem play_colours : Play Props.plat 1 (Stand.start true) [bs!"color", bs!"! 0"] bs!"exit" := by
  have pc : Lex.Line bs!"color" [bs!"color"] := (split_iff _ _).1 rfl
  have px : Lex.Line bs!"exit" [bs!"exit"] := (split_iff _ _).1 rfl
  have hrec : Showcase.Recalls bs!"! 0" 0 := Showcase.recalls_one
  have nb1 := not_bang pc (by simp)
  have nb2 := not_bang px (by simp)
  refine play_cons (by unfold Printable; decide) (.does pc (.color rfl) (by decide)) (plain_no_fail nb1) (.plain (by unfold Readable; decide) nb1) ?_
  have hm : ((0 : Nat), bs!"color") ∈ (skipped ((Book.open 200 []).record bs!"color") bs!"! 0").listing := by decide +kernel
  refine play_cons (by unfold Printable; decide) (.again hrec hm (.wrong pc (by decide) ?_ ?_)) ?_ (.again (by unfold Readable; decide) hrec fun c hc => ?_) ?_
  · rintro (e | ⟨a, n, e, _⟩) <;> simp at e
  · intro k t hd
    rcases does_iff.1 hd with ⟨e, _⟩ | ⟨_, e, _⟩ | ⟨e, _⟩ | ⟨e, _⟩ | ⟨e, _⟩
    · simp at e
    · simp [Stand.prompted] at e
    · simp at e
    · simp at e
    · simp at e
  · intro hf
    cases hf with
    | again y m h =>
      cases recalls_same hrec y
      cases listing_same hm m
      exact plain_no_fail nb1 h
    | empty _ e =>
      rcases e with e | ⟨_, e⟩
      · exact absurd e (by decide +kernel)
      · exact absurd e (by decide +kernel)
  · cases listing_same hm hc
    exact .plain (by unfold Readable; decide) nb1
  · exact play_end (by unfold Printable; decide) (.exit px) (.plain (by unfold Readable; decide) nb2)

/-- What is written, if the timer expires while the second line is typed. -/
example : watch ((bs!"color\n!").flatMap stroke ++ [.own 0] ++ (bs!" 0\nexit\n").flatMap stroke ++ finish) =
    some (bs!"cli\x1b[0m> c\x1b[0mo\x1b[0ml\x1b[0mo\x1b[0mr\x1b[0m\r\nColors ON\n\x1b[32m\x1b[1mcli\x1b[0m> \x1b[97m!\x1b[0mTimer expired!\n\x1b[97m \x1b[0m\x1b[97m0\x1b[0m\r\nwrong command: color\n\x1b[32m\x1b[1mcli\x1b[0m> " ++
      bs!"\x1b[97me\x1b[0m\x1b[97mx\x1b[0m\x1b[97mi\x1b[0m\x1b[97mt\x1b[0m\r\nClosing App...\nGoodbye and thanks for all the fish.\n", .over, ⟨[], 0⟩, []) := by decide +kernel

/-- The line for which it is undefined. -/
example : Fails (Stand.start true).book bs!"! 0" ∧ Within Props.plat 1 (Stand.start true).book bs!"! 0" := by
  have hrec : Showcase.Recalls bs!"! 0" 0 := Showcase.recalls_one
  refine ⟨.empty ⟨0, hrec⟩ (.inr (by decide +kernel)), .again (by unfold Readable; decide) hrec fun c hc => ?_⟩
  have e : (skipped (Stand.start true).book bs!"! 0").entries = [] := by decide +kernel
  have := mem_listing hc
  rw [e] at this
  cases this

end Verif.Hosted
