import Verif.Props.AsyncSession
import Verif.Props.Telnet
import Verif.Props.Split
import Verif.Model.LocalSession

set_option linter.unusedSimpArgs false

/-!
# Properties C57, C73 (the command `exit`), C74 (nothing is executed after `exit`), C75 (enter actions)
-/

namespace Verif.Props
open Spec
open History (WF)

variable {σ τ : Type}

/-! ### C57 and C73: the command `exit` -/

/-- **C57** The line `exit` does what `Exit` does: it runs the session's exit action, then the global one, then hands the history, in which the line itself has been recorded, to the storage; and that is all. -/
theorem C57_exit_line (A : App σ τ) (fuel : Nat) (line : Str) (hl : Lex.Line line [bs!"exit"]) (f : σ → Effect σ) (hf : A.exitSession = some f) (w : World σ τ) (hw : WF w.hist)
    (h1 : (f w.app).exn = none) (h2 : (does A.exitGlobal (f w.app).app).exn = none) (h3 : ∀ cmds, A.storeFails w.storage cmds = none) :
    ∃ w' h cmds, feed A (fuel + 1) line w = .ok (w', none) ∧ History.newCommand w.hist line = .ok h ∧ History.getCommands h = .ok cmds ∧
      w'.app = (does A.exitGlobal (f w.app).app).app ∧
      w'.io.out = w.io.out ++ written (f w.app).acts ++ written (does A.exitGlobal (f w.app).app).acts ∧
      w'.log = w.log ++ .builtin .exit :: .exitSession :: mark A.exitGlobal .exitGlobal ++ [.saved cmds] ∧ w'.storage = A.store w.storage cmds ∧ w'.exit = true := by
  obtain ⟨h, hh, hwf, _⟩ := History.newCommand_ok hw line
  obtain ⟨w', cmds, e1, e2, e3, e4, e5, e6, e7⟩ := C57_exit A f hf ((w.entered h).note (.builtin .exit)) hwf h1 h2 h3
  refine ⟨w', h, cmds, ?_, hh, e2, e3, e4, ?_, e6, e7⟩
  · rw [feed_eq A hl (by simp), hh]
    simp only
    unfold body
    simp only [scanGlobal, show ¬ bs!"exit" = bs!"help" by decide, if_false, if_true, bind, Except.bind, e1]
    rfl
  · rw [e5]; simp [World.note, World.entered]

/-- **C57** Refuted if the storage throws: after the line `exit`, for which both exit actions have been run, the session goes on as if nothing had happened: the exception is reported, the exit flag is not set and the next prompt is written.
    Entering `exit` again runs the actions again. -/
theorem C57_storage_refuted (A : App σ τ) (fuel : Nat) (line : Str) (hl : Lex.Line line [bs!"exit"]) (f : σ → Effect σ) (hf : A.exitSession = some f) (w : World σ τ) (hw : WF w.hist)
    (h1 : (f w.app).exn = none) (h2 : (does A.exitGlobal (f w.app).app).exn = none) (s : Str) (h3 : ∀ cmds, A.storeFails w.storage cmds = some (.std s)) (h4 : A.onException = none) :
    ∃ w', feed A (fuel + 1) line w = .ok (w', none) ∧ w'.io.out = w.io.out ++ written (f w.app).acts ++ written (does A.exitGlobal (f w.app).app).acts ++ s ++ bs!"\n" ∧
      w'.log = w.log ++ .builtin .exit :: .exitSession :: mark A.exitGlobal .exitGlobal ++ [.reported line (.std s)] ∧ w'.exit = w.exit := by
  obtain ⟨h, hh, hwf, _⟩ := History.newCommand_ok hw line
  obtain ⟨w', e1, e3, e4, e5, e6, e7⟩ := C57_storage_throws A f hf ((w.entered h).note (.builtin .exit)) _ (C29_saved_is_suffix_partial h hwf) (.std s) h1 h2 (h3 _)
  refine ⟨(w'.note (.reported line (.std s))).put (s ++ bs!"\n"), ?_, ?_, ?_, e7⟩
  · rw [feed_eq A hl (by simp), hh]
    simp only
    unfold body
    simp only [scanGlobal, show ¬ bs!"exit" = bs!"help" by decide, if_false, if_true, bind, Except.bind, e1]
    simp [catchAll, reportException, h4, builtinOutcome, fallback, Exn.what]
  · show w'.io.out ++ (s ++ bs!"\n") = _
    rw [e4]; simp [World.note, World.entered]
  · show w'.log ++ [_] = _
    rw [e5]; simp [World.note, World.entered]

/-- Twice. -/
example : (match feed { actions with storeFails := fun _ _ => some (.std bs!"disk full") } 1 bs!"exit" Sample.world with
    | .ok (w, _) => (feed { actions with storeFails := fun _ _ => some (.std bs!"disk full") } 1 bs!"exit" w).toOption.map (fun r => (r.1.io.out, r.1.exit))
    | .error _ => none) = some (bs!"goodbye\ndisk full\ngoodbye\ndisk full\n", false) := by decide +kernel

/-- **C57** If the session's exit action throws, the line `exit` is reported like any other command that throws, and the session goes on. -/
theorem C57_exit_line_throws (A : App σ τ) (fuel : Nat) (line : Str) (hl : Lex.Line line [bs!"exit"]) (f : σ → Effect σ) (hf : A.exitSession = some f) (w : World σ τ) (hw : WF w.hist) (s : Str)
    (h1 : (f w.app).exn = some (.std s)) (h4 : A.onException = none) :
    ∃ w', feed A (fuel + 1) line w = .ok (w', none) ∧ w'.app = (f w.app).app ∧ w'.io.out = w.io.out ++ written (f w.app).acts ++ s ++ bs!"\n" ∧
      w'.log = w.log ++ [.builtin .exit, .exitSession, .reported line (.std s)] ∧ w'.storage = w.storage ∧ w'.exit = w.exit := by
  obtain ⟨h, hh, hwf, _⟩ := History.newCommand_ok hw line
  have e1 : exitSession A ((w.entered h).note (.builtin .exit)) = .ok ((((w.entered h).note (.builtin .exit)).note .exitSession).effect (f w.app), some (.std s)) := by
    rw [exitSession_eq, hf]
    simp only [optAction, callAction, World.note, World.entered, h1]
  obtain ⟨r1, r2, r3, r4⟩ := effect_result (((w.entered h).note (.builtin .exit)).note .exitSession) (f w.app)
  refine ⟨(((((w.entered h).note (.builtin .exit)).note .exitSession).effect (f w.app)).note (.reported line (.std s))).put (s ++ bs!"\n"), ?_, ?_, ?_, ?_, ?_, ?_⟩
  · rw [feed_eq A hl (by simp), hh]
    simp only
    unfold body
    simp only [scanGlobal, show ¬ bs!"exit" = bs!"help" by decide, if_false, if_true, bind, Except.bind, e1]
    simp [catchAll, reportException, h4, builtinOutcome, fallback, Exn.what]
  · exact r1
  · show _ ++ (s ++ bs!"\n") = _
    rw [show (World.note _ _).io.out = _ from r2]; simp [World.note, World.entered]
  · show _ ++ [_] = _
    rw [r3]; simp [World.note, World.entered]
  · exact r4.storage
  · exact r4.exit

/-- The exit action throws twice. -/
example : (match feed { Sample.app with exitSession := some (fun s => ⟨1 :: s, [.out bs!"bye\n"], some (.std bs!"not yet")⟩) } 1 bs!"exit" Sample.world with
    | .ok (w, _) => (feed { Sample.app with exitSession := some (fun s => ⟨2 :: s, [.out bs!"bye\n"], some (.std bs!"not yet")⟩) } 1 bs!"exit" w).toOption.map (fun r => (r.1.io.out, r.1.app, r.1.exit))
    | .error _ => none) = some (bs!"bye\nnot yet\nbye\nnot yet\n", [2, 1], false) := by decide +kernel

/-- **C19 refuted** for `exit`: if the session's exit action throws `std::bad_cast` the line is reported as a wrong command, although the action has been run, and not as an exception; the session goes on. -/
theorem C19_exit_bad_cast_refuted (A : App σ τ) (fuel : Nat) (line : Str) (hl : Lex.Line line [bs!"exit"]) (f : σ → Effect σ) (hf : A.exitSession = some f) (w : World σ τ) (hw : WF w.hist) (a : σ) (what : Str)
    (h1 : f w.app = ⟨a, [], some (.badCast what)⟩) (h4 : A.onWrong = none) (path : Path) (hp : w.tree.locate w.current = some path)
    (hc : ∀ c args, ¬ DesignatesCmd w.dis path [bs!"exit"] c args) (hm : ∀ q, ¬ DesignatesMenu w.dis path [bs!"exit"] q) :
    ∃ w', feed A (fuel + 1) line w = .ok (w', none) ∧ w'.app = a ∧ w'.io.out = w.io.out ++ bs!"wrong command: " ++ line ++ bs!"\n" ∧
      w'.log = w.log ++ [.builtin .exit, .exitSession, .wrong line] ∧ w'.storage = w.storage ∧ w'.exit = w.exit := by
  obtain ⟨h, hh, hwf, _⟩ := History.newCommand_ok hw line
  obtain ⟨v, hv⟩ : ∃ v : World σ τ, v = { ((w.entered h).note (.builtin .exit)).note .exitSession with app := a } := ⟨_, rfl⟩
  have e1 : exitSession A ((w.entered h).note (.builtin .exit)) = .ok (v, some (.badCast what)) := by
    rw [exitSession_eq, hf, hv]
    simp only [optAction, callAction, World.note, World.entered, h1, World.effect, List.foldl]
  have v1 : v.tree = w.tree ∧ v.current = w.current ∧ v.dis = w.dis ∧ v.app = a ∧ v.io = w.io ∧ v.log = w.log ++ [.builtin .exit, .exitSession] ∧ v.storage = w.storage ∧ v.exit = w.exit := by
    rw [hv]; simp [World.note, World.entered]
  obtain ⟨v1, v2, v3, v4, v5, v6, v7, v8⟩ := v1
  refine ⟨(v.note (.wrong line)).put (bs!"wrong command: " ++ line ++ bs!"\n"), ?_, v4, ?_, ?_, v7, v8⟩
  · rw [feed_eq A hl (by simp), hh]
    simp only
    unfold body
    simp only [scanGlobal, show ¬ bs!"exit" = bs!"help" by decide, if_false, if_true, bind, Except.bind, e1, builtinOutcome]
    rcases search_cases A v [bs!"exit"] (by simp) path (fun c args hd => absurd (by rw [v3] at hd; exact hd) (hc c args)) with ⟨_, _, h3⟩ | ⟨x, ⟨he, cs, hd, _⟩, _⟩
    · have hs : scanCurrent A [bs!"exit"] v = .ok (v, .notFound) := by
        rw [← h3]
        simp only [scanCurrent, v1, v2, hp]
      simp only [userPart, hs, wrongCommand, h4, catchAll]
    · exfalso
      rw [v3] at he hd
      cases x with
      | cmd c args => exact hc c args ((designatesCmd_iff _ _ _ _ _).2 ⟨cs, (mem_cands _ _ _ _).2 ⟨he, hd⟩⟩)
      | menu q => exact hm q ((designatesMenu_iff _ _ _ _).2 ⟨cs, (mem_cands _ _ _ _).2 ⟨he, hd⟩⟩)
  · show v.io.out ++ _ = _
    rw [v5]; simp
  · show v.log ++ _ = _
    rw [v6]; simp

/-- In the sample application, whose root menu has no command `exit`. -/
example : (feed { Sample.app with exitSession := some (fun s => ⟨7 :: s, [], some (.badCast bs!"std::bad_cast")⟩) } 1 bs!"exit" Sample.world).toOption.map (fun r => (r.1.io.out, r.1.app, r.1.exit)) =
    some (bs!"wrong command: exit\n", [7], false) := by decide +kernel

/-- **C73** (part) In an asynchronous session, the line `exit` runs the exit actions and saves the history, whatever was entered before, if the exit actions and the storage do not throw. What is missing is the end of the input
    (refuted: `C73_eof_refuted`). -/
theorem C73_exit_line_partial (A : App σ τ) (fuel : Nat) (s : Async.St σ τ) (rest : Str) (hr : s.reading = true) (hl : s.live = true) (hb : s.buf = bs!"exit\n" ++ rest) (hw : WF s.w.hist)
    (f : σ → Effect σ) (hf : A.exitSession = some f) (h1 : (f s.w.app).exn = none) (h2 : (does A.exitGlobal (f s.w.app).app).exn = none)
    (h3 : ∀ cmds, A.storeFails s.w.storage cmds = none) :
    ∃ s' cmds, Async.step A (fuel + 1) s .line = .ok (s', none) ∧ s'.w.app = (does A.exitGlobal (f s.w.app).app).app ∧
      s'.w.log = s.w.log ++ .builtin .exit :: .exitSession :: mark A.exitGlobal .exitGlobal ++ [.saved cmds] ∧ s'.w.storage = A.store s.w.storage cmds ∧ s'.w.exit = true := by
  have hx : Lex.Line bs!"exit" [bs!"exit"] := (C02_split_iff_grammar _ _).1 (by rfl)
  obtain ⟨w', h, cmds, e1, _, _, e3, _, e5, e6, e7⟩ := C57_exit_line A fuel _ hx f hf s.w hw h1 h2 h3
  obtain ⟨s', g1, g2⟩ := C73_exit_partial A (fuel + 1) s rest hr hl hb w' e1 e7
  exact ⟨s', cmds, g1, by rw [g2, e3], by rw [g2, e5], by rw [g2, e6], by rw [g2, e7]⟩

/-! ### C74 -/

/-- Nothing happens after the history has been saved, which is the last thing `Exit` does. -/
def SavedLast (log : List Event) : Prop := ∀ a cmds b, log = a ++ Event.saved cmds :: b → b = []

/-- Nothing has been saved in between. -/
def NoneSaved (w w' : World σ τ) : Prop := ∃ evs, w'.log = w.log ++ evs ∧ evs.any isSaved = false

theorem noneSaved_trans {a b c : World σ τ} (h1 : NoneSaved a b) (h2 : NoneSaved b c) : NoneSaved a c := by
  obtain ⟨e1, h1, g1⟩ := h1
  obtain ⟨e2, h2, g2⟩ := h2
  exact ⟨e1 ++ e2, by rw [h2, h1, List.append_assoc], by simp [g1, g2]⟩

theorem noneSaved_same {w w' : World σ τ} (h : w'.log = w.log) : NoneSaved w w' := ⟨[], by simp [h], rfl⟩

theorem noneSaved_note (w : World σ τ) (e : Event) (h : isSaved e = false) : NoneSaved w (w.note e) := ⟨[e], rfl, by simp [h]⟩

theorem noneSaved_closed (A : App σ τ) : NoExit A (NoneSaved (σ := σ) (τ := τ)) where
  core := Apart.core
    { refl := fun w => noneSaved_same rfl
      trans := noneSaved_trans
      handler := fun c vals w => noneSaved_trans (noneSaved_same (effect_result w _).2.2.1) (noneSaved_note _ _ rfl)
      note := fun w e h => noneSaved_note w e (by cases e <;> first | rfl | cases h)
      put := fun w s => noneSaved_same rfl
      exception := fun f _ w l e => noneSaved_same (effect_result w _).2.2.1
      wrong := fun f _ w l => noneSaved_same (effect_result w _).2.2.1
      enter := fun w i _ => noneSaved_same rfl }
  exit := fun w => noneSaved_note w _ rfl
  bang := fun w n => noneSaved_note w _ rfl
  help := fun w s => noneSaved_note w _ rfl
  history := fun w s => noneSaved_note w _ rfl
  hist := fun w h => noneSaved_same rfl

theorem any_saved {l : List Event} (h : l.any isSaved = false) (cmds : List Str) : Event.saved cmds ∉ l := by
  intro hm
  rw [List.any_eq_false] at h
  exact h _ hm rfl

theorem savedLast_none {l : List Event} (h : l.any isSaved = false) : SavedLast l := by
  intro a cmds b e
  exact absurd (by rw [e]; simp) (any_saved h cmds)

theorem savedLast_snoc {l : List Event} (h : l.any isSaved = false) (cmds : List Str) : SavedLast (l ++ [.saved cmds]) := by
  intro a c b e
  rcases List.eq_nil_or_concat b with hb | ⟨b', x, hb⟩
  · exact hb
  · exfalso
    subst hb
    rw [show a ++ Event.saved c :: (b'.concat x) = (a ++ Event.saved c :: b') ++ [x] by simp] at e
    have := (List.append_inj' e rfl).1
    exact any_saved h c (by rw [this]; simp)

/-- `Exit` saves the history as the last thing, or throws. -/
theorem exit_saves (A : App σ τ) {w w' : World σ τ} {x : Option Exn} (h : exitSession A w = .ok (w', x)) :
    ∃ evs, evs.any isSaved = false ∧ ((x ≠ none ∧ w'.log = w.log ++ evs) ∨ (x = none ∧ ∃ cmds, w'.log = w.log ++ evs ++ [.saved cmds])) := by
  have hm : ∀ (a : Option (σ → Effect σ)) (e : Event), isSaved e = false → (mark a e).any isSaved = false := by
    intro a e he; unfold mark; split <;> simp [he]
  rw [exitSession_eq] at h
  split at h
  · cases h; exact ⟨[], rfl, .inl ⟨by simp, by simp⟩⟩
  · rename_i f hf
    obtain ⟨_, _, _, a4, _⟩ := optAction_result (some f) .exitSession w
    split at h
    · rename_i w1 e ho
      rw [ho] at a4
      cases h; exact ⟨_, hm _ _ rfl, .inl ⟨by simp, a4⟩⟩
    · rename_i w1 ho
      rw [ho] at a4
      obtain ⟨_, _, _, b4, _⟩ := optAction_result A.exitGlobal .exitGlobal w1
      have hq : (mark (some f) Event.exitSession ++ mark A.exitGlobal Event.exitGlobal).any isSaved = false := by
        rw [List.any_append, hm _ _ rfl, hm _ _ rfl]; rfl
      split at h
      · rename_i w2 e ho2
        rw [ho2] at b4
        cases h; exact ⟨_, hq, .inl ⟨by simp, by rw [b4, a4, List.append_assoc]⟩⟩
      · rename_i w2 ho2
        rw [ho2] at b4
        split at h
        · cases h
        · rename_i cmds _
          split at h
          · cases h; exact ⟨_, hq, .inl ⟨by simp, by simp only; rw [b4, a4, List.append_assoc]⟩⟩
          cases h
          exact ⟨_, hq, .inr ⟨rfl, cmds, by simp only [World.note]; rw [b4, a4, List.append_assoc w.log]⟩⟩

/-- **C74** (part) Within one call of `Feed`, which may execute several commands by way of `!`, nothing happens after `Exit` has been completed: no command is executed, no handler is called, `Exit` is not called again. -/
theorem C74_feed_partial (A : App σ τ) (fuel : Nat) (line : Str) (w w' : World σ τ) (x : Option Exn) (hw : ∀ cmds, .saved cmds ∉ w.log) (h : feed A fuel line w = .ok (w', x)) :
    SavedLast w'.log := by
  have hn : w.log.any isSaved = false := by
    rw [List.any_eq_false]
    intro e he hs
    cases e <;> simp [isSaved] at hs
    exact hw _ he
  rcases feed_once_last (noneSaved_closed A) fuel line w w' x h with ⟨evs, q1, q2⟩ | ⟨w1, w2, x2, ⟨e1, q1, g1⟩, q2, ⟨e3, q3, g3⟩, q4⟩
  · exact savedLast_none (by rw [q1]; simp [hn, q2])
  · obtain ⟨e2, g2, ⟨hx, k⟩ | ⟨hx, cmds, k⟩⟩ := exit_saves A q2
    · exact savedLast_none (by rw [q3, k, q1]; simp [hn, g1, g2, g3])
    · obtain ⟨rfl, _⟩ := q4 hx
      rw [k, q1]
      exact savedLast_snoc (by simp [hn, g1, g2]) cmds

theorem plays_savedLast (A : App σ τ) {fuel : Nat} {w w' : World (σ × Bool) τ} {ls fed : List Str} {x : Option Exn} (h : Plays (FileSession.fileApp A none) fuel w ls fed w' x)
    (hs : SavedLast w.log) : SavedLast w'.log := by
  have hn : ∀ w : World (σ × Bool) τ, ends w.log = [] → w.log.any isSaved = false := by
    intro w hw
    rw [List.any_eq_false]
    intro e he hs
    cases e <;> simp [isSaved] at hs
    rename_i cmds
    have : Event.saved cmds ∈ ends w.log := by simp [ends, he, isEnd]
    rw [hw] at this; cases this
  have hn' : ∀ w : World (σ × Bool) τ, ends w.log = [] → ∀ cmds, .saved cmds ∉ w.log := fun w hw cmds => any_saved (hn w hw) cmds
  induction h with
  | over _ => exact hs
  | eof hw hp he =>
    have hw1 := (stays_prompt hp).1.trans hw
    obtain ⟨evs, g, ⟨_, k⟩ | ⟨_, cmds, k⟩⟩ := exit_saves _ he
    · exact savedLast_none (by rw [k]; simp [hn _ hw1, g])
    · rw [k]; exact savedLast_snoc (by simp [hn _ hw1, g]) cmds
  | line hw hp hf _ ih =>
    have hw1 := (stays_prompt hp).1.trans hw
    exact ih (C74_feed_partial _ _ _ _ _ _ (hn' _ hw1) hf)
  | thrown hw hp hf =>
    have hw1 := (stays_prompt hp).1.trans hw
    exact C74_feed_partial _ _ _ _ _ _ (hn' _ hw1) hf

/-- **C74** (part) A session on a file executes nothing after `Exit` has been completed, whatever follows in the input. Missing: the other kinds of sessions (refuted below). -/
theorem C74_file_partial (A : App σ τ) (fuel n : Nat) (d : Str) (w : World (σ × Bool) τ) (h0 : w.app.2 = false) (hl : ends w.log = []) (E : FileSession.End σ τ)
    (h : FileSession.start (FileSession.fileApp A none) fuel n (.of d) w = .ok (some E)) : SavedLast E.w.log := by
  obtain ⟨ls, rest, hd⟩ := lines_total d
  obtain ⟨h1, h2⟩ := C55_lines_partial A fuel n d ls rest hd w h0 hl E h
  have hs : SavedLast (enterSession (FileSession.fileApp A none) w).1.log := by
    have q := (enter_stays A none w).1.trans hl
    intro a cmds b e
    have : Event.saved cmds ∈ ends (enterSession (FileSession.fileApp A none) w).1.log := by rw [e]; simp [ends, isEnd]
    rw [q] at this; cases this
  cases hx : (enterSession (FileSession.fileApp A none) w).2 with
  | some e => rw [(h1 e hx).2.1]; exact hs
  | none => exact plays_savedLast A (h2 hx) hs

/-- The file goes on after `exit`; the rest is not executed. -/
example : outcome (FileSession.start onFile 3 9 (.of bs!"any 1\nexit\nsub go\n") fileWorld) = some ([bs!"any 1", bs!"exit"], [5], false, 2) := by decide +kernel

/-- Which commands have run after the history was saved? -/
def runsAfter : List Event → List Nat
  | [] => []
  | .saved _ :: rest => rest.filterMap (fun | .ran c _ _ _ => some c.fn | _ => none)
  | _ :: rest => runsAfter rest

theorem runsAfter_of_savedLast {log : List Event} (h : SavedLast log) : runsAfter log = [] := by
  induction log with
  | nil => rfl
  | cons e log ih =>
    have h' : SavedLast log := fun a cmds b he => h (e :: a) cmds b (by rw [he]; rfl)
    cases e <;> simp only [runsAfter] <;> first | exact ih h' | skip
    rw [h [] _ log rfl]; rfl

/-- **C74 refuted** An asynchronous session goes on executing lines after `exit`. -/
theorem C74_async_refuted : ∃ r, Async.run Sample.app 3 [.data bs!"exit\nany 1\n", .line, .line] async0 = .ok r ∧ r.2 = none ∧ runsAfter r.1.w.log = [5] := ⟨_, rfl, rfl, rfl⟩

/-- **C74 refuted** A session with a terminal goes on executing commands after `exit` has been entered, and after the end of file (Ctrl-D). -/
theorem C74_terminal_refuted :
    (∃ r, Processor.run Sample.app 3 ((bs!"exit").map .ascii ++ [.ret] ++ (bs!"any").map .ascii ++ [.ret]) ⟨Sample.world, ⟨[], 0⟩, true⟩ = .ok r ∧ r.2 = none ∧ runsAfter r.1.w.log = [5]) ∧
    (∃ r, Processor.run Sample.app 3 (.eof :: (bs!"any").map .ascii ++ [.ret]) ⟨Sample.world, ⟨[], 0⟩, true⟩ = .ok r ∧ r.2 = none ∧ runsAfter r.1.w.log = [5]) :=
  ⟨⟨_, rfl, rfl, rfl⟩, ⟨_, rfl, rfl, rfl⟩⟩

/-- **C74 refuted** A telnet session goes on executing commands after `exit`, although it has disconnected the client: those that had been received by then. -/
theorem C74_telnet_refuted :
    ∃ r, Telnet.events (Telnet.telnetApp Sample.app (some (fun s => ⟨s, [], none⟩)) true) 5 ([.packet (bs!"exit" ++ [13, 0] ++ bs!"any" ++ [13, 0])] ++ List.replicate 9 .task)
      ⟨Telnet.Rx.init, .s1, [], ⟨online Sample.world, ⟨[], 0⟩, true⟩⟩ = .ok r ∧ r.2 = none ∧ r.1.proc.w.app.2 = false ∧ runsAfter r.1.proc.w.log = [5] := ⟨_, rfl, rfl, rfl, rfl⟩

/-! ### C75 -/

/-- The enter action of the `Cli` has been run, and then the session's, each once and before anything else, in particular before the first prompt, from the state `s` and on the output `out`. -/
structure Welcomed (A : App σ τ) (session : Option (σ → Effect σ)) (s : σ) (out : Str) (app : σ) (log : List Event) (out' : Str) : Prop where
  app : app = (does session (does A.enterGlobal s).app).app
  log : log = mark A.enterGlobal .enterGlobal ++ mark session .enterSession
  out : ∃ rest, out' = out ++ written (does A.enterGlobal s).acts ++ written (does session (does A.enterGlobal s).app).acts ++ rest

theorem put_out (i : Io) (s : Str) : (i.put s).out = i.out ++ s := rfl

theorem prompt_out {w w' : World σ τ} (h : prompt w = .ok w') : w'.app = w.app ∧ w'.log = w.log ∧ ∃ t, w'.io.out = w.io.out ++ t := by
  unfold prompt at h
  split at h
  · cases h; exact ⟨rfl, rfl, [], by simp⟩
  · split at h
    · cases h
      refine ⟨rfl, rfl, ?_⟩
      have hs : ∀ (i : Io) t, ∃ t', (i.beforePrompt.put t).afterPrompt.out = i.out ++ t' := by
        intro i t
        have h1 : ∀ (i : Io) n, ∃ t, (i.sgr n).out = i.out ++ t := by
          intro i n; unfold Io.sgr; split
          · exact ⟨_, rfl⟩
          · exact ⟨[], by simp⟩
        have h2 : ∃ t, i.beforePrompt.out = i.out ++ t := by
          unfold Io.beforePrompt; split
          · obtain ⟨t1, e1⟩ := h1 i.force 32
            obtain ⟨t2, e2⟩ := h1 (i.force.sgr 32) 1
            exact ⟨t1 ++ t2, by rw [e2, e1, List.append_assoc]; rfl⟩
          · exact ⟨[], by simp⟩
        obtain ⟨t1, e1⟩ := h2
        obtain ⟨t2, e2⟩ := h1 (i.beforePrompt.put t) 0
        exact ⟨t1 ++ t ++ t2, by unfold Io.afterPrompt; rw [e2, put_out, e1]; simp⟩
      obtain ⟨t, ht⟩ := hs w.io _
      exact ⟨_, by rw [put_out, ht, List.append_assoc]⟩
    · cases h

/-- **C75** (part) A session with a terminal runs the enter action of the `Cli` when it is created. -/
theorem C75_local_partial {α : Type} (A : App σ τ) (manual : α → α) (tty : α) (n : Nat) (w : World σ τ) (io : Io) (hx : (does A.enterGlobal w.app).exn = none) (s : Local.St σ τ α) (x : Option Exn)
    (h : Local.create A manual tty n w io = .ok (s, x)) :
    x = none ∧ Welcomed A none w.app io.out s.proc.w.app s.proc.w.log s.proc.w.io.out := by
  obtain ⟨a1, a2, a3, a4⟩ := C57_enter { A with enterSession := none } (newSession A n w io) hx
  unfold Local.create at h
  cases he : enterSession { A with enterSession := none } (newSession A n w io) with
  | mk w1 x1 =>
    rw [he] at h a1 a2 a3 a4
    simp only at h a1 a2 a3 a4
    subst a1
    simp only [does] at h
    split at h
    · cases h
    · rename_i w2 hp
      cases h
      obtain ⟨p1, p2, t, p3⟩ := prompt_out hp
      exact ⟨rfl, ⟨by rw [p1, a2]; rfl, by rw [p2, a4]; rfl, t, by rw [p3, a3]; rfl⟩⟩

/-- The enter action as a telnet session or a session on a file sees it. -/
theorem does_lift {f : σ × Bool → (σ → Effect σ) → Effect (σ × Bool)} (a : Option (σ → Effect σ)) (s : σ × Bool) (hf : ∀ s g, f s g = ⟨((g s.1).app, s.2), (g s.1).acts, (g s.1).exn⟩) :
    (does (a.map (fun g s => f s g)) s).app = ((does a s.1).app, s.2) ∧ (does (a.map (fun g s => f s g)) s).acts = (does a s.1).acts ∧ (does (a.map (fun g s => f s g)) s).exn = (does a s.1).exn := by
  cases a with
  | none => exact ⟨rfl, rfl, rfl⟩
  | some g => simp [does, hf]

/-- **C75** (part) A telnet session runs the enter action of the `Cli` when the client has connected, after the bytes that negotiate the mode of the terminal. -/
theorem C75_telnet_partial (A : App σ τ) (S : Telnet.Server σ) (w : World σ τ) (io : Io) (hx : (does A.enterGlobal w.app).exn = none) (t : Telnet.Tel (σ × Bool) τ) (x : Option Exn)
    (h : Telnet.accept A S w io = .ok (t, x)) :
    x = none ∧ t.proc.w.app.2 = true ∧ Welcomed A none w.app (io.out ++ Spec.Telnet.welcome) t.proc.w.app.1 t.proc.w.log t.proc.w.io.out := by
  rw [show Spec.Telnet.welcome = Telnet.greeting by decide]
  unfold Telnet.accept Telnet.connect at h
  simp only at h
  generalize hv : World.put _ _ = v at h
  have v1 : v.app = (w.app, true) := by rw [← hv]; rfl
  have v2 : v.log = [] := by rw [← hv]; rfl
  have v3 : v.io.out = io.out ++ Telnet.greeting := by rw [← hv]; rfl
  obtain ⟨d1, d2, d3⟩ := does_lift (f := fun s g => Telnet.lift (g s.1) s.2) A.enterGlobal (w.app, true) (fun _ _ => rfl)
  obtain ⟨a1, a2, a3, a4⟩ := C57_enter (Telnet.telnetApp A S.exitAction true) v (by rw [v1]; exact d3.trans hx)
  cases he : enterSession (Telnet.telnetApp A S.exitAction true) v with
  | mk w1 x1 =>
    rw [he] at h a1 a2 a3 a4
    simp only at h a1 a2 a3 a4
    subst a1
    simp only [does, Telnet.telnetApp, bind, Except.bind] at h
    split at h
    · cases h
    · rename_i w2 hp
      cases h
      obtain ⟨p1, p2, t, p3⟩ := prompt_out hp
      have e1 : w2.app = ((does A.enterGlobal w.app).app, true) := by rw [p1, a2, v1]; exact d1
      refine ⟨rfl, by simp only [e1], ⟨by simp only [e1]; rfl, ?_, t, ?_⟩⟩
      · simp only [p2, a4, v2]
        unfold mark Telnet.telnetApp
        simp
      · simp only [p3, a3, v3, v1]
        rw [show (does (Telnet.telnetApp (τ := τ) A S.exitAction true).enterGlobal (w.app, true)).acts = _ from d2]
        rfl

/-- **C75** (part) A session on a file runs the enter action of the `Cli` and then the session's, when it is started. -/
theorem C75_file_partial (A : App σ τ) (fuel n : Nat) (i : FileSession.In) (w : World (σ × Bool) τ) (hl : w.log = []) (h1 : (does A.enterGlobal w.app.1).exn = none)
    (h2 : (does A.enterSession (does A.enterGlobal w.app.1).app).exn = none) :
    ∃ w1, FileSession.start (FileSession.fileApp A none) fuel n i w = FileSession.loop (FileSession.fileApp A none) fuel n i [] w1 ∧
      Welcomed A A.enterSession w.app.1 w.io.out w1.app.1 w1.log w1.io.out := by
  obtain ⟨d1, d2, d3⟩ := does_lift (f := fun s g => FileSession.lift s.2 (g s.1)) A.enterGlobal w.app (fun _ _ => rfl)
  obtain ⟨f1, f2, f3⟩ := does_lift (f := fun s g => FileSession.lift s.2 (g s.1)) A.enterSession ((does A.enterGlobal w.app.1).app, w.app.2) (fun _ _ => rfl)
  obtain ⟨a1, a2, a3, a4⟩ := C57_enter (FileSession.fileApp A none) w (by exact d3.trans h1)
  unfold FileSession.start
  cases he : enterSession (FileSession.fileApp A none) w with
  | mk w1 x1 =>
    rw [he] at a1 a2 a3 a4
    rw [show (does (FileSession.fileApp (τ := τ) A none).enterGlobal w.app).app = _ from d1] at a1 a2 a3
    rw [show (does (FileSession.fileApp (τ := τ) A none).enterGlobal w.app).acts = _ from d2] at a3
    simp only at a1 a2 a3 a4
    rw [show (does (FileSession.fileApp (τ := τ) A none).enterSession _).exn = _ from f3, h2] at a1
    rw [show (does (FileSession.fileApp (τ := τ) A none).enterSession _).app = _ from f1] at a2
    rw [show (does (FileSession.fileApp (τ := τ) A none).enterSession _).acts = _ from f2] at a3
    subst a1
    refine ⟨w1, rfl, ⟨by rw [a2], ?_, [], by rw [a3]; simp⟩⟩
    rw [a4, hl]
    unfold mark FileSession.fileApp
    simp

/-- **C75 refuted** An asynchronous session never runs an enter action, whatever the application: none when it is created … -/
theorem C75_async_refuted (A : App σ τ) (w : World σ τ) (io : Io) (s : Async.St σ τ) (h : Async.create A w io = .ok s) : s.w.log = [] ∧ s.w.app = w.app := by
  unfold Async.create Async.read at h
  split at h
  · cases h
  · rename_i w1 hp
    cases h
    obtain ⟨p1, p2, _⟩ := prompt_out hp
    exact ⟨p2, p1⟩

/-- … and none later. -/
example : ∃ s, Async.create actions Sample.world Sample.io = .ok s ∧ s.w.app = [] ∧ s.w.io.out = bs!"cli> " := ⟨_, rfl, rfl, rfl⟩

/-- **C75 refuted** The enter action of a telnet server is never run: the server behaves as if it had none. -/
theorem C75_server_refuted (A : App σ τ) (S : Telnet.Server σ) (w : World σ τ) (io : Io) (a : Option (σ → Effect σ)) :
    Telnet.accept A { S with enterAction := a } w io = Telnet.accept A S w io := rfl

example : ∃ r, Telnet.accept actions ⟨some (fun s => ⟨7 :: s, [.out bs!"welcome\n"], none⟩), none, 9⟩ Sample.world Sample.io = .ok r ∧ r.1.proc.w.app = ([101], true) ∧
    r.1.proc.w.io.out = Telnet.greeting ++ bs!"hello cli> " := ⟨_, rfl, rfl, rfl⟩
example : ∃ r, Local.create actions (fun b : Bool => b) true 9 Sample.world Sample.io = .ok r ∧ r.1.proc.w.app = [101] ∧ r.1.proc.w.io.out = bs!"hello cli> " := ⟨_, rfl, rfl, rfl⟩

end Verif.Props
