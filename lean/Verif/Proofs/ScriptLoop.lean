import Verif.Proofs.Script

set_option linter.unusedSimpArgs false

/-!
# C108: lines, and the loop of the session
-/

namespace Verif.Script
open Spec Props
open FromString (Value)

/-! ### Lines and their tokens -/

theorem body_bytes {q : Option Byte} {src txt : Str} (h : Lex.Body q src txt) : ∀ c ∈ txt, c ∈ src := by
  induction h with
  | nil => intro c hc; cases hc
  | char _ _ ih =>
    intro c hc
    rcases List.mem_cons.1 hc with rfl | hc
    · simp
    · simp [ih c hc]
  | @esc c src txt _ ih =>
    intro x hx
    rcases List.mem_append.1 hx with hx | hx
    · unfold Lex.escaped at hx
      split at hx <;> simp at hx <;> simp [hx]
      rcases hx with rfl | rfl <;> simp
    · simp [ih x hx]

theorem arg_bytes {txt t : Str} (h : t ∈ Lex.arg txt) : t = txt := by
  unfold Lex.arg at h
  split at h <;> simp at h
  exact h

/-- The tokens consist of bytes of the line. -/
theorem line_bytes {l : Str} {toks : List Str} (h : Lex.Line l toks) : ∀ t ∈ toks, ∀ c ∈ t, c ∈ l := by
  induction h with
  | nil => intro t ht; cases ht
  | blank _ _ ih => intro t ht c hc; simp [ih t ht c hc]
  | bang _ ih =>
    intro t ht c hc
    rcases List.mem_cons.1 ht with rfl | ht
    · simp at hc; simp [hc]
    · simp [ih t ht c hc]
  | word hb _ _ _ ih =>
    intro t ht c hc
    rcases List.mem_append.1 ht with ht | ht
    · cases arg_bytes ht; simp [body_bytes hb c hc]
    · simp [ih t ht c hc]
  | wordCut hb =>
    intro t ht c hc
    cases arg_bytes ht; simp [body_bytes hb c hc]
  | quoted _ hb _ ih =>
    intro t ht c hc
    rcases List.mem_append.1 ht with ht | ht
    · cases arg_bytes ht; simp [body_bytes hb c hc]
    · simp [ih t ht c hc]
  | unclosed _ hb =>
    intro t ht c hc
    cases arg_bytes ht; simp [body_bytes hb c hc]
  | unclosedCut _ hb =>
    intro t ht c hc
    cases arg_bytes ht; simp [body_bytes hb c hc]

theorem line_same {l : Str} {a b : List Str} (h1 : Lex.Line l a) (h2 : Lex.Line l b) : a = b := by
  have e1 := (split_iff _ _).2 h1
  rw [(split_iff _ _).2 h2] at e1
  cases e1; rfl

/-- The text contains nothing that makes converting an argument to `int` undefined: no byte for which `isdigit` is, and no minus sign if overflow of `int` is (C05). -/
def Harmless (p : Platform) (d : Str) : Prop := ∀ c ∈ d, p.ctypeUB c = false ∧ (p.strictOverflow = false ∨ c ≠ b%'-')

theorem harmless_fine {p : Platform} {l : Str} {toks : List Str} (h : Harmless p l) (hl : Lex.Line l toks) : Fine p toks := by
  intro t ht
  refine ⟨fun c hc => (h c (line_bytes hl t ht c hc)).1, ?_⟩
  cases t with
  | nil => exact .inr (by simp)
  | cons c cs =>
    rcases (h c (line_bytes hl _ ht c (by simp))).2 with h | h
    · exact .inl h
    · exact .inr (by simpa using h)

/-! ### One line -/

/-- The session is in this state. -/
structure At (s : Seat) (w : W) : Prop where
  tree : w.tree = tree
  dis : ∀ i, w.dis i = false
  current : w.current = s.place.id
  exit : w.exit = false
  app : w.app = ((), false)
  color : w.io.style.color = s.colour
  escapes : (w.io.style.forced || w.io.style.tty) = s.escapes
  mode : w.hist.mode = .inserting
  zero : w.hist.current = 0
  size : w.hist.maxSize = 1
  buffer : w.hist.buffer = s.last.toList
  number : w.hist.idOfOldest = s.number

/-- Recording a line. -/
theorem at_record {s : Seat} {w : W} (h : At s w) (line : Str) : ∃ x, History.newCommand w.hist line = .ok x ∧ At (s.record line) (w.entered x) := by
  unfold History.newCommand
  simp only [h.mode]
  have hb := h.buffer
  unfold Seat.record
  cases hl : s.last with
  | none =>
    rw [hl] at hb
    have hb : w.hist.buffer = [] := hb
    rw [if_pos (by simp [hb])]
    refine ⟨_, rfl, ⟨h.tree, h.dis, h.current, h.exit, h.app, h.color, h.escapes, rfl, ?_, ?_, ?_, ?_⟩⟩ <;> simp [World.entered, History.insert, hb, h.size, h.number]
  | some l =>
    rw [hl] at hb
    have hb : w.hist.buffer = [l] := hb
    dsimp only
    by_cases he : l = line
    · subst he
      rw [if_neg (by simp [hb]), if_pos rfl]
      exact ⟨_, rfl, ⟨h.tree, h.dis, h.current, h.exit, h.app, h.color, h.escapes, rfl, rfl, h.size, h.buffer, h.number⟩⟩
    · rw [if_pos (by simp [hb, he]), if_neg he]
      refine ⟨_, rfl, ⟨h.tree, h.dis, h.current, h.exit, h.app, h.color, h.escapes, rfl, ?_, ?_, ?_, ?_⟩⟩ <;> simp [World.entered, History.insert, hb, h.size, h.number]

theorem record_last (s : Seat) (line : Str) : (s.record line).last = some line := by
  unfold Seat.record
  split
  · rfl
  · split
    · rename_i h1 h2; rw [h1, h2]
    · rfl

theorem record_place (s : Seat) (line : Str) : (s.record line).place = s.place := by
  unfold Seat.record
  split
  · rfl
  · split <;> rfl

theorem at_after {s : Seat} {r : Reply} {w w' : W} (h : At s w) (ha : After r w w') : At (s.apply r) w' := by
  refine ⟨ha.tree.trans h.tree, fun i => by rw [ha.dis]; exact h.dis i, ?_, ha.exit.trans h.exit, ha.app.trans h.app, ?_, ?_, by rw [ha.hist]; exact h.mode, by rw [ha.hist]; exact h.zero, by rw [ha.hist]; exact h.size, ?_, ?_⟩
  · rw [ha.current]; cases r <;> first | exact h.current | rfl
  · rw [ha.color]; cases r <;> first | exact h.color | rfl
  · rw [ha.forced, ha.tty]; cases r <;> exact h.escapes
  · rw [ha.hist, h.buffer]; cases r <;> rfl
  · rw [ha.hist, h.number]; cases r <;> rfl

theorem at_same {s : Seat} {w : W} (h : At s w) (t : Str) (log : List Event) : At s { w with io := w.io.put t, log := log } :=
  ⟨h.tree, h.dis, h.current, h.exit, h.app, h.color, h.escapes, h.mode, h.zero, h.size, h.buffer, h.number⟩

theorem help_text {s : Seat} {w : W} (h : At s w) : helpCmd (w.note (.builtin .help)) = .ok ({ w.note (.builtin .help) with io := w.io.put (bs!"Commands available:\n" ++ (globalItems ++ s.place.offers).flatMap HelpItem.text) }) := by
  unfold helpCmd
  have e : (w.note (.builtin .help)).tree.locate (w.note (.builtin .help)).current = some (path s.place) := by
    show w.tree.locate w.current = _
    rw [h.tree, h.current, locate_place]
  have hd : (w.note (.builtin .help)).dis = fun _ => false := funext h.dis
  rw [e, hd]
  simp only [World.put, World.note]
  congr 3
  cases s.place <;> decide +kernel

/-- The exit sequence. -/
theorem exit_says {s : Seat} {w : W} (p : Platform) (bye : Option Str) (h : At s w) : ∃ w', exitSession (A p bye) w = .ok (w', none) ∧ w'.io.out = w.io.out ++ bye.getD [] ++ goodbye ∧ w'.app.2 = true ∧ w'.exit = true := by
  cases bye
  all_goals
    refine ⟨_, by
      simp only [exitSession, FileSession.fileApp, app, callAction, optAction, Option.map, World.effect, World.note, FileSession.lift, Option.toList, List.map, List.foldl_cons, List.foldl_nil, World.act, World.put, Io.put, History.getCommands, h.mode]
      rfl, ?_, rfl, rfl⟩
    simp [goodbye]

/-- **What one line does.** -/
theorem line_step (p : Platform) (bye : Option Str) (fuel : Nat) {s : Seat} {w : W} {l : Str} (h : At s w) (hh : Harmless p l) :
    (∃ w', Lex.Line l [bs!"exit"] ∧ feed (A p bye) (fuel + 1) l w = .ok (w', none) ∧ w'.io.out = w.io.out ++ bye.getD [] ++ goodbye ∧ w'.app.2 = true ∧ w'.exit = true) ∨
    (Bang l ∧ (s.record l).number = 0 ∧ feed (A p bye) (fuel + 1) l w = .error (.ub .outOfRange)) ∨
    (∃ w' s' t, ¬ Lex.Line l [bs!"exit"] ∧ (Bang l → (s.record l).number ≠ 0) ∧ feed (A p bye) (fuel + 1) l w = .ok (w', none) ∧ Line s l s' t ∧ At s' w' ∧ w'.io.out = w.io.out ++ t) := by
  obtain ⟨toks, hl⟩ := line_exists l
  by_cases hb : toks = []
  · subst hb
    refine .inr (.inr ⟨w, s, [], fun h2 => (by cases line_same hl h2), ?_, feed_blank (A p bye) hl fuel w, .blank hl, h, by simp⟩)
    rintro ⟨a, n, h2, _⟩
    cases line_same hl h2
  obtain ⟨x, hx, hr⟩ := at_record h l
  rw [feed_eq (A p bye) hl hb, hx]
  simp only
  have hbuf : (w.entered x).hist.buffer = [l] := by rw [hr.buffer, record_last]; rfl
  have hfine := harmless_fine hh hl
  have hout : (w.entered x).io = w.io := rfl
  rcases scanGlobal_cases (A p bye) (feed (A p bye) fuel) toks hb (w.entered x) with ⟨g1, g2⟩ | ⟨_, _, a, ha, c, hc, hu⟩ | ⟨g1, g2⟩ | ⟨g1, g2⟩ | ⟨g1, g2⟩ | ⟨a, n, g1, g2, g3, g4⟩
  · -- a command of the program, or none
    have hne : ¬ Lex.Line l [bs!"exit"] := fun h2 => g1 .exit (by rw [line_same hl h2]; exact .exit)
    have hnb : ¬ Bang l := by
      rintro ⟨a, n, h2, h3, h4⟩
      exact g1 (.bang n) (by rw [line_same hl h2]; exact .bang h3 h4)
    simp only [body, g2, userPart]
    rcases scan_agrees p hb hfine hr.dis hr.tree hr.current with ⟨a, w', d1, d2, d3⟩ | ⟨d1, d2⟩
    · rw [d2]
      refine .inr (.inr ⟨w', _, a.text, hne, fun hbb => absurd hbb hnb, rfl, .does hl (by rw [← record_place s l]; exact d1), at_after hr d3, by rw [d3.out, hout]⟩)
    · rw [d2]
      refine .inr (.inr ⟨(((w.entered x).note (.wrong l)).put (bs!"wrong command: " ++ l ++ bs!"\n")), _, _, hne, fun hbb => absurd hbb hnb, rfl, .wrong hl ?_ hnb ?_, at_same hr _ _, rfl⟩)
      · simp only [List.mem_cons, List.not_mem_nil, or_false, not_or]
        refine ⟨hb, ?_, ?_, ?_⟩ <;> rintro rfl
        · exact g1 _ .help
        · exact g1 _ .history
        · exact g1 _ .exit
      · rw [← record_place s l]; exact d1
  · subst ha
    have := (hfine a (by simp)).1 c hc
    rw [show (A p bye).plat = p from rfl, this] at hu
    cases hu
  · subst g1
    simp only [body, g2, helpPart, help_text hr]
    refine .inr (.inr ⟨_, s.record l, _, fun h2 => (by cases line_same hl h2), ?_, rfl, .help hl, at_same hr _ _, by rw [record_place]; rfl⟩)
    rintro ⟨a, n, h2, _⟩
    cases line_same hl h2
  · subst g1
    obtain ⟨w', e1, e2, e3⟩ := exit_says p bye (w := (w.entered x).note (.builtin .exit)) ⟨hr.tree, hr.dis, hr.current, hr.exit, hr.app, hr.color, hr.escapes, hr.mode, hr.zero, hr.size, hr.buffer, hr.number⟩
    simp only [body, g2, exitPart, e1, builtinOutcome, catchAll]
    exact .inl ⟨w', hl, rfl, e2, e3⟩
  · subst g1
    simp only [body, g2, historyPart, catchAll]
    refine .inr (.inr ⟨_, s.record l, _, fun h2 => (by cases line_same hl h2), ?_, rfl, .history hl (Plugged.number_shows _), at_same hr _ _, ?_⟩)
    · rintro ⟨a, n, h2, _⟩
      cases line_same hl h2
    · simp only [World.put, World.note, Io.put, hout, HistoryList.render, History.listing, hbuf, hr.number]
      simp [HistoryList.number, Plugins.number]
  · subst g1
    have hbang : Bang l := ⟨a, n, hl, g2, g3⟩
    simp only [body, g4, bangPart, History.forgetLatest, hbuf]
    by_cases hz : (s.record l).number = 0
    · refine .inr (.inl ⟨hbang, hz, ?_⟩)
      have hnum : (w.entered x).hist.idOfOldest = 0 := hr.number.trans hz
      have : History.at { (w.entered x).hist with buffer := [] } n = .error (.ub .outOfRange) := by
        have e : History.idToIndex { (w.entered x).hist with buffer := [] } n = some (History.wsub (2 ^ 64 - 1) n) := by
          simp only [History.idToIndex, hnum, List.length_nil]
          rw [if_neg (by simp [History.wsub]; omega)]
          simp [History.wsub]
        simp only [History.at, e]
        simp
      rw [this]
      rfl
    · have : History.at { (w.entered x).hist with buffer := [] } n = .ok none := by
        have e : History.idToIndex { (w.entered x).hist with buffer := [] } n = none := by
          have hnum : (w.entered x).hist.idOfOldest = (s.record l).number := hr.number
          simp only [History.idToIndex, hnum, List.length_nil]
          rw [if_pos]
          simp only [History.wsub]
          rw [if_pos (by omega)]
          omega
        simp only [History.at, e]
      rw [this]
      let v : W := { (w.entered x).note (.builtin (.bang n)) with hist := { (w.entered x).hist with buffer := [] } }
      refine .inr (.inr ⟨(reportException (A p bye) l (.std bs!"Index not found in history") v).1, { s.record l with last := none }, bs!"Index not found in history\n", fun h2 => (by cases line_same hl h2), fun _ => hz, ?_, .missing hbang, ?_, ?_⟩)
      · rfl
      · exact ⟨hr.tree, hr.dis, hr.current, hr.exit, hr.app, hr.color, hr.escapes, hr.mode, hr.zero, hr.size, rfl, hr.number⟩
      · rfl

/-! ### The whole input -/

theorem prompt_says {s : Seat} {w : W} (h : At s w) : ∃ w', prompt w = .ok w' ∧ At s.prompted w' ∧ w'.io.out = w.io.out ++ s.prompt := by
  have hp : ∃ m k q, path s.place = (m, k) :: q ∧ m.prompt = s.place.name := by cases s.place <;> exact ⟨_, _, _, rfl, rfl⟩
  obtain ⟨m, k, q, e1, e2⟩ := hp
  have e : w.tree.locate w.current = some ((m, k) :: q) := by rw [h.tree, h.current, locate_place, e1]
  have e3 : decimal 32 = bs!"32" := by decide +kernel
  have e4 : decimal 1 = bs!"1" := by decide +kernel
  have e5 : decimal 0 = bs!"0" := by decide +kernel
  refine ⟨{ w with io := (((w.io.beforePrompt).put m.prompt).afterPrompt).put bs!"> " }, by simp only [prompt, h.exit, Bool.false_eq_true, if_false, e], ⟨h.tree, h.dis, h.current, h.exit, h.app, ?_, ?_, h.mode, h.zero, h.size, h.buffer, h.number⟩, ?_⟩
  all_goals
    have hc := h.color
    have hx := h.escapes
    unfold Seat.prompted at *
    revert hc hx
    obtain ⟨⟨c, t, f⟩, out⟩ := w.io
    intro hc hx
    simp only at hc hx
    simp only [Seat.prompt, ← hc, ← hx]
    cases c <;> cases t <;> cases f <;> simp [Io.beforePrompt, Io.afterPrompt, Io.put, Io.force, Io.sgr, Seat.prompt, e2, e3, e4, e5]

/-- Nothing has been recorded. -/
def Seat.Fresh (s : Seat) : Prop := s.last = none ∧ s.number = 0

theorem line_next {s s' : Seat} {l t : Str} (h : Line s l s' t) (hz : Bang l → (s.record l).number ≠ 0) (hb : ∀ x, s.last = some x → ¬ Bang x) :
    (∀ x, s'.last = some x → ¬ Bang x) ∧ (s'.Fresh → s.Fresh ∧ Lex.Line l []) := by
  have step : ∀ toks, Lex.Line l toks → ¬ Bang l → ∀ q : Seat, q.last = (s.record l).last → (∀ x, q.last = some x → ¬ Bang x) ∧ (q.Fresh → s.Fresh ∧ Lex.Line l []) := by
    intro toks hl hn q hq
    refine ⟨fun x hx => ?_, fun hf => ?_⟩
    · rw [hq, record_last] at hx; cases hx; exact hn
    · have := hf.1; rw [hq, record_last] at this; cases this
  have nb : ∀ toks, Lex.Line l toks → (∀ a, toks ≠ [bs!"!", a]) → ¬ Bang l := by
    rintro toks hl hne ⟨a, n, h2, _⟩
    exact hne a (line_same hl h2)
  cases h with
  | blank hl => exact ⟨hb, fun hf => ⟨hf, hl⟩⟩
  | help hl => exact step _ hl (nb _ hl (by simp)) _ rfl
  | history hl => exact step _ hl (nb _ hl (by simp)) _ rfl
  | missing hbang => exact ⟨fun x hx => (by cases hx), fun hf => absurd hf.2 (hz hbang)⟩
  | @does toks r hl hd =>
    refine step _ hl (nb _ hl ?_) _ (by cases r <;> rfl)
    rintro a rfl
    cases hp : s.place <;> rw [hp] at hd
    · have := does_root.1 hd; simp at this
    · have := does_sub.1 hd; simp at this
    · have := does_subsub.1 hd; simp at this
  | wrong hl _ hn => exact step _ hl hn _ rfl

theorem getline_line {l rest : Str} (hn : b%'\n' ∉ l) : FileSession.getline (.of (l ++ b%'\n' :: rest)) = (.of rest, l) := (C55_getline (.of (l ++ b%'\n' :: rest))).2.1 rfl l rest hn rfl

theorem doomed_cons {l : Str} {ls : List Str} : Doomed (l :: ls) ↔ Bang l ∨ (Lex.Line l [] ∧ Doomed ls) := by
  constructor
  · rintro ⟨bl, x, r, he, h1, h2⟩
    cases bl with
    | nil => cases he; exact .inl h2
    | cons b bl => cases he; exact .inr ⟨h1 _ (by simp), bl, x, r, rfl, fun y hy => h1 y (by simp [hy]), h2⟩
  · rintro (h | ⟨h, bl, x, r, rfl, h1, h2⟩)
    · exact ⟨[], l, ls, rfl, by simp, h⟩
    · exact ⟨l :: bl, x, r, rfl, by simpa [h] using h1, h2⟩

theorem loop_says (p : Platform) (fuel : Nat) : ∀ (ls : List Str) (d rest : Str) (_ : Lines d ls rest) (_ : Harmless p d) (n : Nat) (_ : ls.length + 1 ≤ n) (fed : List Str) (s : Seat) (w : W) (_ : At s w) (_ : ∀ x, s.last = some x → ¬ Bang x),
    (¬ (s.Fresh ∧ Doomed ls) → ∃ E o, FileSession.loop (A p none) (fuel + 1) n (.of d) fed w = .ok (some E) ∧ E.exn = none ∧ Output s ls o ∧ E.w.io.out = w.io.out ++ o) ∧
    (s.Fresh ∧ Doomed ls → FileSession.loop (A p none) (fuel + 1) n (.of d) fed w = .error (.ub .outOfRange)) := by
  intro ls
  induction ls with
  | nil =>
    intro d rest hd hh n hn fed s w h hb
    have hdoom : ¬ Doomed [] := by rintro ⟨bl, x, r, he, _⟩; simp at he
    refine ⟨fun _ => ?_, fun hx => absurd hx.2 hdoom⟩
    have hrest : b%'\n' ∉ d := by rw [hd.text]; simpa using hd.rest
    cases n with
    | zero => omega
    | succ n =>
      obtain ⟨w1, p1, p2, p3⟩ := prompt_says h
      have hg := (C55_getline (.of d)).2.2 rfl hrest
      obtain ⟨w2, e1, e2, e3, _⟩ := exit_says p none p2
      refine ⟨⟨w2, ⟨[], false, true, d.isEmpty, false⟩, fed, none⟩, s.prompt ++ goodbye, ?_, rfl, .eof, ?_⟩
      · unfold FileSession.loop
        rw [if_neg (by rw [h.app]; simp)]
        simp only [p1, hg]
        rw [if_pos (by rfl)]
        simp only [FileSession.In.of, Bool.not_false, if_true, FileSession.exitThen, e1]
        unfold FileSession.loop
        simp [e3]
      · show w2.io.out = _
        rw [e2, p3]; simp
  | cons l ls ih =>
    intro d rest hd hh n hn fed s w h hb
    cases n with
    | zero => omega
    | succ n =>
      have hn : ls.length + 1 ≤ n := by simpa using hn
      obtain ⟨w1, p1, p2, p3⟩ := prompt_says h
      have htext : d = l ++ b%'\n' :: (ls.flatMap (fun l => l ++ [b%'\n']) ++ rest) := by rw [hd.text]; simp
      have hln : b%'\n' ∉ l := hd.lines l (by simp)
      have hd' : Lines (ls.flatMap (fun l => l ++ [b%'\n']) ++ rest) ls rest := ⟨rfl, fun x hx => hd.lines x (by simp [hx]), hd.rest⟩
      have hg : FileSession.getline (.of d) = (.of (ls.flatMap (fun l => l ++ [b%'\n']) ++ rest), l) := by rw [htext]; exact getline_line hln
      have hh1 : Harmless p l := fun c hc => hh c (by rw [htext]; simp [hc])
      have hh2 : Harmless p (ls.flatMap (fun l => l ++ [b%'\n']) ++ rest) := fun c hc => hh c (by rw [htext]; exact List.mem_append_right _ (List.mem_cons_of_mem _ hc))
      have hloop : FileSession.loop (A p none) (fuel + 1) (n + 1) (.of d) fed w =
          (match feed (A p none) (fuel + 1) l w1 with
          | .error f => .error f
          | .ok (w, some e) => .ok (some ⟨w, .of (ls.flatMap (fun l => l ++ [b%'\n']) ++ rest), fed ++ [l], some e⟩)
          | .ok (w, none) => FileSession.loop (A p none) (fuel + 1) n (.of (ls.flatMap (fun l => l ++ [b%'\n']) ++ rest)) (fed ++ [l]) w) := by
        conv => lhs; unfold FileSession.loop
        rw [if_neg (by rw [h.app]; simp)]
        simp only [p1, hg]
        rw [if_pos (by rfl)]
        simp only [FileSession.In.of, Bool.false_eq_true, if_false]
        rcases feed (A p none) (fuel + 1) l w1 with f | ⟨w, _ | e⟩ <;> rfl
      have hfr : s.prompted.Fresh ↔ s.Fresh := Iff.rfl
      have hrecz : (s.prompted.record l).number = 0 → Bang l → s.Fresh := by
        intro hz hbl
        cases hl : s.last with
        | none =>
          have : (s.prompted.record l).number = s.number := by simp [Seat.record, Seat.prompted, hl]
          exact ⟨hl, by rw [← this]; exact hz⟩
        | some y =>
          exfalso
          by_cases hy : y = l
          · subst hy; exact hb y hl hbl
          · have : (s.prompted.record l).number = s.number + 1 := by simp [Seat.record, Seat.prompted, hl, hy]
            omega
      rcases line_step p none fuel p2 hh1 with ⟨w2, e1, e2, e3, e4, _⟩ | ⟨e1, e2, e3⟩ | ⟨w2, s', t, e1, e2, e3, e4, e5, e6⟩
      · have hnd : ¬ (s.Fresh ∧ Doomed (l :: ls)) := by
          rintro ⟨_, hdm⟩
          rcases doomed_cons.1 hdm with ⟨a, n, h2, _⟩ | ⟨h2, _⟩ <;> cases line_same e1 h2
        refine ⟨fun _ => ?_, fun hx => absurd hx hnd⟩
        refine ⟨⟨w2, .of (ls.flatMap (fun l => l ++ [b%'\n']) ++ rest), fed ++ [l], none⟩, s.prompt ++ goodbye, ?_, rfl, .exit e1, ?_⟩
        · rw [hloop, e2]
          simp only
          unfold FileSession.loop
          simp [e4]
        · show w2.io.out = _
          rw [e3, p3]; simp
      · refine ⟨fun hx => absurd ⟨hrecz e2 e1, doomed_cons.2 (.inl e1)⟩ hx, fun _ => ?_⟩
        rw [hloop, e3]
      · obtain ⟨n1, n2⟩ := line_next e4 e2 hb
        obtain ⟨i1, i2⟩ := ih _ rest hd' hh2 n hn (fed ++ [l]) s' w2 e5 n1
        rw [hloop, e3]
        simp only
        constructor
        · intro hx
          obtain ⟨E, o, a1, a2, a3, a4⟩ := i1 (fun hy => hx ⟨hfr.1 (n2 hy.1).1, doomed_cons.2 (.inr ⟨(n2 hy.1).2, hy.2⟩)⟩)
          exact ⟨E, s.prompt ++ t ++ o, a1, a2, .line e1 e4 a3, by rw [a4, e6, p3]; simp⟩
        · rintro ⟨hx, hdm⟩
          rcases doomed_cons.1 hdm with hbl | ⟨hbl, hdm⟩
          · exfalso
            apply e2 hbl
            simp [Seat.record, Seat.prompted, hx.1, hx.2]
          · refine i2 ⟨?_, hdm⟩
            cases e4 with
            | blank _ => exact hx
            | help h2 => cases line_same hbl h2
            | history h2 => cases line_same hbl h2
            | missing h2 => obtain ⟨a, n, h2, _⟩ := h2; cases line_same hbl h2
            | does h2 h3 => cases line_same hbl h2; exact absurd h3 does_nil
            | wrong h2 h3 => cases line_same hbl h2; simp at h3

end Verif.Script
