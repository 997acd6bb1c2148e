import Verif.Spec.Help
import Verif.Props.Bang

set_option linter.unusedSimpArgs false

/-!
# Properties C57, C58, C59: enter and exit, prompt, help; C29 and C33 for whole sessions
-/

namespace Verif.Props
open Spec
open History (WF listing)

variable {σ τ : Type} (A : App σ τ)

/-! ### What a call of user code leaves -/

/-- What these actions write to the session's stream. -/
def written : List Act → Str
  | [] => []
  | .out s :: as => s ++ written as
  | .cout s :: as => s ++ written as
  | _ :: as => written as

theorem act_app (w : World σ τ) (a : Act) : (w.act a).app = w.app := by
  cases a with
  | out | cout | color => rfl
  | enable id => simp only [World.act]; split <;> rfl
  | disable id => simp only [World.act]; split <;> rfl
  | remove id => simp only [World.act]; split <;> rfl
  | insert m n => simp only [World.act]; split <;> rfl

theorem act_out (w : World σ τ) (a : Act) : (w.act a).io.out = w.io.out ++ written [a] := by
  cases a with
  | out s => simp [World.act, World.put, Io.put, written]
  | cout s => simp [World.act, World.put, Io.put, written]
  | color => simp [World.act, written]
  | enable id => simp only [World.act]; split <;> simp [written]
  | disable id => simp only [World.act]; split <;> simp [written]
  | remove id => simp only [World.act]; split <;> simp [written]
  | insert m n => simp only [World.act]; split <;> simp [written]

theorem written_cons (a : Act) (as : List Act) : written (a :: as) = written [a] ++ written as := by
  cases a <;> simp [written]

theorem effect_result (w : World σ τ) (e : Effect σ) : (w.effect e).app = e.app ∧ (w.effect e).io.out = w.io.out ++ written e.acts ∧ (w.effect e).log = w.log ∧
    SameSession w (w.effect e) := by
  obtain ⟨s1, s2, _, _⟩ := effect_same w e
  refine ⟨?_, ?_, s2, s1⟩
  · have : ∀ (as : List Act) (u : World σ τ), (as.foldl World.act u).app = u.app := by
      intro as
      induction as with
      | nil => intro u; rfl
      | cons a as ih => intro u; rw [List.foldl_cons, ih, act_app]
    exact this e.acts { w with app := e.app }
  · have : ∀ (as : List Act) (u : World σ τ), (as.foldl World.act u).io.out = u.io.out ++ written as := by
      intro as
      induction as with
      | nil => intro u; simp [written]
      | cons a as ih => intro u; rw [List.foldl_cons, ih, act_out, written_cons a as, List.append_assoc]
    exact this e.acts { w with app := e.app }

/-! ### C57 -/

/-- The effect of an action, if there is one. -/
def does (a : Option (σ → Effect σ)) (s : σ) : Effect σ :=
  match a with
  | none => ⟨s, [], none⟩
  | some f => f s

/-- An event that happens if there is an action. -/
def mark (a : Option (σ → Effect σ)) (e : Event) : List Event := if a.isSome then [e] else []

theorem optAction_result (a : Option (σ → Effect σ)) (ev : Event) (w : World σ τ) :
    (optAction a ev w).2 = (does a w.app).exn ∧ (optAction a ev w).1.app = (does a w.app).app ∧
    (optAction a ev w).1.io.out = w.io.out ++ written (does a w.app).acts ∧ (optAction a ev w).1.log = w.log ++ mark a ev ∧ SameSession w (optAction a ev w).1 := by
  cases a with
  | none => exact ⟨rfl, rfl, by simp [optAction, does, written], by simp [optAction, mark], .refl _⟩
  | some f =>
    obtain ⟨h1, h2, h3, h4⟩ := effect_result (w.note ev) (f w.app)
    exact ⟨rfl, h1, h2, h3, ⟨h4.hist, h4.current, h4.exit, h4.storage⟩⟩

/-- **C57** Entering a session runs the global enter action and then the session's, each once, the second from the state and on the output left by the first. -/
theorem C57_enter (w : World σ τ) (h1 : (does A.enterGlobal w.app).exn = none) :
    let e1 := does A.enterGlobal w.app
    let e2 := does A.enterSession e1.app
    (enterSession A w).2 = e2.exn ∧ (enterSession A w).1.app = e2.app ∧ (enterSession A w).1.io.out = w.io.out ++ written e1.acts ++ written e2.acts ∧
    (enterSession A w).1.log = w.log ++ mark A.enterGlobal .enterGlobal ++ mark A.enterSession .enterSession := by
  intro e1 e2
  obtain ⟨a1, a2, a3, a4, _⟩ := optAction_result A.enterGlobal .enterGlobal w
  rw [h1] at a1
  unfold enterSession
  cases ho : optAction A.enterGlobal .enterGlobal w with
  | mk w1 x1 =>
    rw [ho] at a1 a2 a3 a4
    cases a1
    obtain ⟨b1, b2, b3, b4, _⟩ := optAction_result A.enterSession .enterSession w1
    simp only at a2 a3 a4 ⊢
    rw [a2] at b1 b2 b3
    exact ⟨b1, b2, by rw [b3, a3], by rw [b4, a4]⟩

/-- **C57** An exception of the global enter action leaves `Enter`, and the session's action is not run. -/
theorem C57_enter_throws (w : World σ τ) (x : Exn) (h1 : (does A.enterGlobal w.app).exn = some x) :
    (enterSession A w).2 = some x ∧ (enterSession A w).1.app = (does A.enterGlobal w.app).app ∧
    (enterSession A w).1.log = w.log ++ mark A.enterGlobal .enterGlobal := by
  obtain ⟨a1, a2, a3, a4, _⟩ := optAction_result A.enterGlobal .enterGlobal w
  rw [h1] at a1
  unfold enterSession
  cases ho : optAction A.enterGlobal .enterGlobal w with
  | mk w1 x1 =>
    rw [ho] at a1 a2 a3 a4
    cases a1
    exact ⟨rfl, a2, a4⟩

/-- **C57** Exiting runs the session's exit action, then the global one, then hands the history to the storage; each once, in this order. -/
theorem C57_exit (f : σ → Effect σ) (hf : A.exitSession = some f) (w : World σ τ) (hw : WF w.hist)
    (h1 : (f w.app).exn = none) (h2 : (does A.exitGlobal (f w.app).app).exn = none) (h3 : ∀ cmds, A.storeFails w.storage cmds = none) :
    ∃ w' cmds, exitSession A w = .ok (w', none) ∧ History.getCommands w.hist = .ok cmds ∧
      w'.app = (does A.exitGlobal (f w.app).app).app ∧
      w'.io.out = w.io.out ++ written (f w.app).acts ++ written (does A.exitGlobal (f w.app).app).acts ∧
      w'.log = w.log ++ .exitSession :: mark A.exitGlobal .exitGlobal ++ [.saved cmds] ∧ w'.storage = A.store w.storage cmds ∧ w'.exit = true := by
  obtain ⟨a1, a2, a3, a4, a5⟩ := optAction_result (some f) .exitSession w
  replace a1 : _ = (f w.app).exn := a1
  replace a2 : _ = (f w.app).app := a2
  replace a3 : _ = w.io.out ++ written (f w.app).acts := a3
  rw [h1] at a1
  rw [exitSession_eq, hf]
  simp only
  cases ho : optAction (some f) .exitSession w with
  | mk w1 x1 =>
    rw [ho] at a1 a2 a3 a4 a5
    cases a1
    obtain ⟨b1, b2, b3, b4, b5⟩ := optAction_result A.exitGlobal .exitGlobal w1
    simp only at a2 a3 a4 a5 ⊢
    rw [a2] at b1 b2 b3
    rw [h2] at b1
    cases ho2 : optAction A.exitGlobal .exitGlobal w1 with
    | mk w2 x2 =>
      rw [ho2] at b1 b2 b3 b4 b5
      cases b1
      simp only at b2 b3 b4 b5 ⊢
      have hh : w2.hist = w.hist := b5.hist.trans a5.hist
      have hst : w2.storage = w.storage := b5.storage.trans a5.storage
      rw [hh, C29_saved_is_suffix_partial w.hist hw]
      simp only [hst, h3]
      refine ⟨_, _, rfl, rfl, b2, ?_, ?_, ?_, rfl⟩
      · exact b3.trans (by rw [a3])
      · simp [World.note, b4, a4, mark]
      · rfl

/-- **C57** If the storage throws, both actions have been run, but the session is not over: the exit flag is not set. -/
theorem C57_storage_throws (f : σ → Effect σ) (hf : A.exitSession = some f) (w : World σ τ) (cmds : List Str) (hc : History.getCommands w.hist = .ok cmds) (x : Exn)
    (h1 : (f w.app).exn = none) (h2 : (does A.exitGlobal (f w.app).app).exn = none) (h3 : A.storeFails w.storage cmds = some x) :
    ∃ w', exitSession A w = .ok (w', some x) ∧ w'.app = (does A.exitGlobal (f w.app).app).app ∧ w'.io.out = w.io.out ++ written (f w.app).acts ++ written (does A.exitGlobal (f w.app).app).acts ∧
      w'.log = w.log ++ .exitSession :: mark A.exitGlobal .exitGlobal ∧ w'.storage = A.store w.storage cmds ∧ w'.exit = w.exit := by
  obtain ⟨a1, a2, a3, a4, a5⟩ := optAction_result (some f) .exitSession w
  replace a1 : _ = (f w.app).exn := a1
  replace a2 : _ = (f w.app).app := a2
  replace a3 : _ = w.io.out ++ written (f w.app).acts := a3
  rw [h1] at a1
  rw [exitSession_eq, hf]
  simp only
  cases ho : optAction (some f) .exitSession w with
  | mk w1 x1 =>
    rw [ho] at a1 a2 a3 a4 a5
    cases a1
    obtain ⟨b1, b2, b3, b4, b5⟩ := optAction_result A.exitGlobal .exitGlobal w1
    simp only at a2 a3 a4 a5 ⊢
    rw [a2] at b1 b2 b3
    rw [h2] at b1
    cases ho2 : optAction A.exitGlobal .exitGlobal w1 with
    | mk w2 x2 =>
      rw [ho2] at b1 b2 b3 b4 b5
      cases b1
      simp only at b2 b3 b4 b5 ⊢
      have hh : w2.hist = w.hist := b5.hist.trans a5.hist
      have hst : w2.storage = w.storage := b5.storage.trans a5.storage
      rw [hh, hc]
      simp only [hst, h3]
      exact ⟨_, rfl, b2, b3.trans (by rw [a3]), by simp [b4, a4, mark], rfl, b5.exit.trans a5.exit⟩

/-- **C57** If an exit action throws, what would come after it is not done: the history is not stored. -/
theorem C57_exit_throws (f : σ → Effect σ) (hf : A.exitSession = some f) (w : World σ τ) :
    (∀ x, (f w.app).exn = some x → ∃ w', exitSession A w = .ok (w', some x) ∧ w'.log = w.log ++ [.exitSession] ∧ w'.storage = w.storage ∧ w'.exit = w.exit) ∧
    (∀ x, (f w.app).exn = none → (does A.exitGlobal (f w.app).app).exn = some x →
      ∃ w', exitSession A w = .ok (w', some x) ∧ w'.log = w.log ++ [.exitSession, .exitGlobal] ∧ w'.storage = w.storage ∧ w'.exit = w.exit) := by
  obtain ⟨a1, a2, a3, a4, a5⟩ := optAction_result (some f) .exitSession w
  replace a1 : _ = (f w.app).exn := a1
  replace a2 : _ = (f w.app).app := a2
  rw [exitSession_eq, hf]
  simp only
  cases ho : optAction (some f) .exitSession w with
  | mk w1 x1 =>
    rw [ho] at a1 a2 a4 a5
    simp only at a1 a2 a4 a5
    constructor
    · intro x hx
      rw [hx] at a1; subst a1
      exact ⟨w1, rfl, a4, a5.storage, a5.exit⟩
    · intro x h1 h2
      rw [h1] at a1; subst a1
      obtain ⟨b1, b2, b3, b4, b5⟩ := optAction_result A.exitGlobal .exitGlobal w1
      rw [a2, h2] at b1
      simp only
      cases ho2 : optAction A.exitGlobal .exitGlobal w1 with
      | mk w2 x2 =>
        rw [ho2] at b1 b4 b5
        simp only at b1 b4 b5
        subst b1
        refine ⟨w2, rfl, ?_, b5.storage.trans a5.storage, b5.exit.trans a5.exit⟩
        rw [b4, a4]
        cases hg : A.exitGlobal with
        | none => rw [hg] at h2; cases h2
        | some g => simp [mark]

/-- **C57** is false of the code when the session has been given an empty function as its exit action: the global action is not run and the history is not stored. -/
theorem C57_empty_exit_action_refuted : ∃ (B : App (List Nat) (List Str)) (w w' : World (List Nat) (List Str)) (x : Exn), B.exitGlobal.isSome ∧ WF w.hist ∧
    exitSession B w = .ok (w', some x) ∧ w'.log = [] ∧ w'.exit = false ∧ w'.storage = w.storage :=
  ⟨{ Sample.app with exitSession := none, exitGlobal := some (fun s => ⟨s, [], none⟩) }, Sample.world, _, _, rfl, ⟨by decide, by decide, by decide⟩, rfl, rfl, rfl, rfl⟩

/-- A sample application with all four actions. -/
def actions : App (List Nat) (List Str) :=
  { Sample.app with
    enterGlobal := some (fun s => ⟨101 :: s, [.out bs!"hello "], none⟩), enterSession := some (fun s => ⟨102 :: s, [.out bs!"you\n"], none⟩),
    exitGlobal := some (fun s => ⟨104 :: s, [.out bs!"bye\n"], none⟩), exitSession := some (fun s => ⟨103 :: s, [.out bs!"good"], none⟩) }

example : (enterSession actions Sample.world).1.app = [102, 101] ∧ (enterSession actions Sample.world).1.io.out = bs!"hello you\n" := ⟨rfl, rfl⟩
example : (exitSession actions typed).map (fun r => (r.1.app, r.1.io.out.drop typed.io.out.length, r.1.storage)) =
    .ok (104 :: 103 :: typed.app, bs!"goodbye\n", [bs!"go", bs!"any x", bs!"any y"]) := by rfl

/-! ### C58 -/

/-- Is it the saving of the history? -/
def isSaved : Event → Bool
  | .saved _ => true
  | _ => false

/-- The exit flag is set exactly when the history has been saved since. -/
def Flagged (w w' : World σ τ) : Prop := ∃ evs, w'.log = w.log ++ evs ∧ (w'.exit = true ↔ w.exit = true ∨ evs.any isSaved = true)

theorem flagged_same {w w' : World σ τ} (h1 : w'.log = w.log) (h2 : w'.exit = w.exit) : Flagged w w' := ⟨[], by simp [h1], by simp [h2]⟩

theorem flagged_effect (w : World σ τ) (e : Effect σ) : Flagged w (w.effect e) :=
  flagged_same (effect_result w e).2.2.1 (effect_result w e).2.2.2.exit

theorem closed_flagged : Closed A Flagged where
  refl := fun w => flagged_same rfl rfl
  trans := by
    rintro a b c ⟨e1, h1, h2⟩ ⟨e2, h3, h4⟩
    refine ⟨e1 ++ e2, by rw [h3, h1, List.append_assoc], ?_⟩
    rw [h4, h2, List.any_append, Bool.or_eq_true, or_assoc]
  handler := by
    intro c vals w
    obtain ⟨_, _, h3, h4⟩ := effect_result w (A.handler c.fn w.app vals)
    exact ⟨[_], by simp only [World.note, h3]; rfl, by simp [World.note, h4.exit, isSaved]⟩
  note := by
    intro w e he
    refine ⟨[e], rfl, ?_⟩
    cases e <;> simp_all [isPlain, isSaved, World.note]
  put := fun w s => flagged_same rfl rfl
  exception := fun f hf w l e => flagged_effect w _
  wrong := fun f hf w l => flagged_effect w _
  exitSession := fun f hf w => flagged_effect w _
  exitGlobal := fun f hf w => flagged_effect w _
  enterSession := fun f hf w => flagged_effect w _
  enterGlobal := fun f hf w => flagged_effect w _
  enter := fun w i hi => flagged_same rfl rfl
  saved := fun w cmds st => ⟨[.saved cmds], rfl, by simp [isSaved]⟩
  unsaved := fun w st => flagged_same rfl rfl

theorem exec_flagged {OK : Act → Prop} {Shown : Str → Prop} {w w' : World σ τ} (h : Exec A OK Shown w w') : Flagged w w' :=
  exec_closed (closed_flagged A) (fun w a _ => flagged_same (act_same w a).2.1 (act_same w a).1.exit) (fun _ _ => flagged_same rfl rfl) (fun _ _ => flagged_same rfl rfl) h

/-- **C58** Once `Exit` has been completed no prompt is written any more, whatever happens afterwards. -/
theorem C58_no_prompt_after_exit (OK : Act → Prop) (Shown : Str → Prop) (w w1 w2 : World σ τ) (hx : exitSession A w = .ok (w1, none)) (h : Exec A OK Shown w1 w2) :
    prompt w2 = .ok w2 := by
  have h1 : w1.exit = true := by
    rw [exitSession_eq] at hx
    split at hx
    · cases hx
    · split at hx
      · cases hx
      · split at hx
        · cases hx
        · split at hx
          · cases hx
          · split at hx
            · cases hx
            · cases hx; rfl
  obtain ⟨_, _, h2⟩ := exec_flagged A h
  simp [prompt, h2.2 (.inl h1)]

/-- **C58** Until then every `Prompt` does write the prompt of the current menu: the flag is set by nothing but the end of `Exit`. -/
theorem C58_prompt_until_exit (OK : Act → Prop) (Shown : Str → Prop) (w w' : World σ τ) (h : Exec A OK Shown w w') (h0 : w.exit = false)
    (hs : ∀ cmds, .saved cmds ∉ w'.log) (m : MenuInfo) (k : Forest) (anc : Path) (hm : w'.tree.locate w'.current = some ((m, k) :: anc)) :
    ∃ w'', prompt w' = .ok w'' ∧ w''.io = (((w'.io.beforePrompt).put m.prompt).afterPrompt).put bs!"> " := by
  obtain ⟨evs, h1, h2⟩ := exec_flagged A h
  have h3 : w'.exit = false := by
    cases hw : w'.exit with
    | false => rfl
    | true =>
      rcases h2.1 hw with h | h
      · rw [h0] at h; cases h
      · obtain ⟨e, he, hes⟩ := List.any_eq_true.1 h
        cases e <;> simp [isSaved] at hes
        rename_i cmds
        exact absurd (by rw [h1]; simp [he]) (hs cmds)
  simp [prompt, h3, hm]

/-- After the `exit` command, lines are still executed but the prompt is no longer written. -/
example : (feed Sample.app 1 bs!"exit" Sample.world).bind (fun r => (feed Sample.app 1 bs!"any" r.1).bind (fun r => (prompt r.1).map (fun w => (w.app, w.io.out)))) =
    .ok ([5], bs!"ok\n") := by rfl
example : (prompt Sample.world).map (·.io.out) = .ok bs!"cli> " := by rfl

/-! ### C59 -/

theorem flatMap_space (ps : List Str) : printDesc ps = ps.flatMap (fun p => bs!" " ++ p) := rfl

theorem cmd_helpText (c : Cmd) : c.helpText = (cmdItem c).text := by
  unfold Cmd.helpText HelpItem.text cmdItem cmdParams
  cases hp : c.parDesc with
  | nil => cases hk : c.kind <;> simp [flatMap_space]
  | cons d ds => simp [List.flatMap_map, List.append_assoc]

theorem forest_helpText (dis : Id → Bool) (f : Forest) :
    f.helpText dis = (((entries f).filter (fun e => !dis (entryId e))).map entryItem).flatMap HelpItem.text := by
  induction f with
  | nil => rfl
  | cmd c rest ih =>
    simp only [Forest.helpText, entries, List.filter_cons]
    rw [show entryId (.cmd c) = c.id from rfl]
    cases dis c.id <;> simp [ih, cmd_helpText, entryItem]
  | menu m k rest ih1 ih2 =>
    simp only [Forest.helpText, entries, List.filter_cons]
    rw [show entryId (.menu m k) = m.id from rfl]
    cases dis m.id <;> simp [ih2, entryItem, menuItem, MenuInfo.helpText, HelpItem.text]

/-- **C59** The line `help` writes the heading and one item for each global command, for each enabled entry of the current menu, in order, and for the parent menu if it is enabled; and does
    nothing else (but for being recorded in the history). -/
theorem C59_help (fuel : Nat) (line : Str) (w : World σ τ) (hw : WF w.hist) (path : Path) (hl : Lex.Line line [bs!"help"])
    (hp : w.tree.locate w.current = some path) (hen : Enabled w.dis path) :
    ∃ h, History.newCommand w.hist line = .ok h ∧
      feed A (fuel + 1) line w = .ok ({ w with hist := h, io := w.io.put (helpFor w.dis path), log := w.log ++ [.builtin .help] }, none) := by
  obtain ⟨h, hh, _⟩ := History.newCommand_ok hw line
  refine ⟨h, hh, ?_⟩
  have htext : bs!"Commands available:\n" ++ globalCmds.flatMap Cmd.helpText ++ mainHelp w.dis path = helpFor w.dis path := by
    unfold helpFor
    rw [List.flatMap_append, List.append_assoc]
    have hg : globalCmds.flatMap Cmd.helpText = globalItems.flatMap HelpItem.text := by decide
    rw [hg]
    cases path with
    | nil => exact absurd hen (by simp [Enabled])
    | cons mk anc =>
      obtain ⟨m, k⟩ := mk
      have hm : w.dis m.id = false := hen
      simp only [mainHelp, hm, menuItems, List.flatMap_append, forest_helpText]
      cases anc with
      | nil => simp
      | cons pk anc =>
        obtain ⟨p, pk⟩ := pk
        cases hd : w.dis p.id <;> simp [hd, menuItem, MenuInfo.helpText, HelpItem.text]
  rw [feed_eq A hl (by simp), hh]
  simp only
  have hs : scanGlobal A (feed A fuel) [bs!"help"] (w.entered h) = .ok (((w.entered h).note (.builtin .help)).put (helpFor w.dis path), .found) := by
    simp only [scanGlobal, if_true, bind, Except.bind, helpCmd]
    have hp' : ((w.entered h).note (.builtin .help)).tree.locate ((w.entered h).note (.builtin .help)).current = some path := hp
    rw [hp']
    simp only
    rw [show ((w.entered h).note (.builtin .help)).dis = w.dis from rfl, htext]
  unfold body
  rw [hs]
  rfl

/-- **C59** In a disabled menu, where no command of the application can be used, only the global commands are listed. -/
theorem C59_help_in_disabled_menu (w : World σ τ) (m : MenuInfo) (k : Forest) (anc : Path) (hp : w.tree.locate w.current = some ((m, k) :: anc)) (hd : w.dis m.id = true) :
    helpCmd w = .ok (w.put (bs!"Commands available:\n" ++ globalItems.flatMap HelpItem.text)) := by
  have hg : globalCmds.flatMap Cmd.helpText = globalItems.flatMap HelpItem.text := by decide
  simp [helpCmd, hp, mainHelp, hd, hg]

/-- In the menu `sub`, with `go` disabled. -/
example : (feed Sample.app 1 bs!"help" { Sample.world with current := 3, dis := fun i => i = 4 }).map (·.1.io.out) =
    .ok bs!"Commands available:\n - help\n\tThis help message\n - exit\n\tQuit the session\n - history\n\tShow the history\n - ! <history entry index>\n\tExec a command by index in the history\n - drop\n\td\n - deep\n\t(menu)\n - cli\n\t(menu)\n" := by rfl

/-! ### C29, C33 for whole sessions -/

/-- Lines entered in a session, each after some browsing. -/
inductive Entered : World σ τ → List (List Bool × Str × Str) → World σ τ → Prop
  | nil (w) : Entered w [] w
  | cons {w w1 w2 keys typed shown h fuel line x rest} : History.browse keys typed w.hist = .ok (shown, h) → feed A fuel line { w with hist := h } = .ok (w1, x) →
      Entered w1 rest w2 → Entered w ((keys, typed, line) :: rest) w2

theorem entered_hist {w w' : World σ τ} {cs : List (List Bool × Str × Str)} (h : Entered A w cs w')
    (hc : ∀ c ∈ cs, ¬ Lex.Line c.2.2 [] ∧ ¬ BangLine c.2.2) : enterAll w.hist cs = .ok w'.hist := by
  induction h with
  | nil => rfl
  | @cons w w1 w2 keys typed shown h fuel line x rest hb hf _ ih =>
    obtain ⟨hne, hnb⟩ := hc _ (List.mem_cons_self ..)
    simp only at hne hnb
    obtain ⟨toks, hl⟩ := line_exists line
    have ht : toks ≠ [] := by rintro rfl; exact hne hl
    cases fuel with
    | zero => cases hf
    | succ fuel =>
      obtain ⟨h1, hn, ⟨_, hr⟩ | ⟨n, h2, hg, _⟩⟩ := feed_level (closed_hist A) fuel hl ht _ _ _ hf
      · have hn' : History.newCommand h line = .ok h1 := hn
        have hr' : w1.hist = h1 := hr
        simp only [enterAll, hb, bind, Except.bind, hn']
        rw [← hr']
        exact ih (fun c hc' => hc c (by simp [hc']))
      · exact absurd ⟨toks, n, hl, hg⟩ hnb

theorem exitSession_saves {w w' : World σ τ} {cmds : List Str} (h : History.getCommands w.hist = .ok cmds) (hx : exitSession A w = .ok (w', none)) :
    w'.storage = A.store w.storage cmds ∧ ∃ evs, w'.log = w.log ++ evs ++ [.saved cmds] := by
  rw [exitSession_eq] at hx
  split at hx
  · cases hx
  · rename_i f hf
    obtain ⟨_, _, _, a4, a5⟩ := optAction_result (some f) .exitSession w
    split at hx
    · cases hx
    · rename_i w1 ho
      rw [ho] at a4 a5
      obtain ⟨_, _, _, b4, b5⟩ := optAction_result A.exitGlobal .exitGlobal w1
      split at hx
      · cases hx
      · rename_i w2 ho2
        rw [ho2] at b4 b5
        simp only at a4 a5 b4 b5
        rw [b5.hist, a5.hist, h] at hx
        simp only at hx
        split at hx
        · cases hx
        cases hx
        refine ⟨by show A.store w2.storage _ = _; rw [b5.storage, a5.storage], mark (some f) .exitSession ++ mark A.exitGlobal .exitGlobal, ?_⟩
        simp [World.note, b4, a4]

/-- **C29** (partial) In a new session lines are entered, browsing at will, none of them blank, a re-execution `! n` or a repetition of the line before. If the session is then left, exactly the entered
    lines (the latest ones, if they are more than the history's size) are handed to the storage, in order. Missing: repetitions (see the next theorem) and re-executions (`C29_refuted_repetition`, `C29_reexecuted_refuted`; for them `C29_nothing_missed`). -/
theorem C29_session_partial (n : Nat) (hn : 1 ≤ n) (w0 : World σ τ) (io : Io) (cs : List (List Bool × Str × Str)) (w w' : World σ τ)
    (hr : Entered A (newSession A n w0 io) cs w) (hc : ∀ c ∈ cs, ¬ Lex.Line c.2.2 [] ∧ ¬ BangLine c.2.2)
    (hnr : NoRepetition (A.stored w0.storage).getLast? (cs.map (·.2.2))) (hx : exitSession A w = .ok (w', none)) :
    w'.storage = A.store w.storage (lastN n (cs.map (·.2.2))) ∧ ∃ evs, w'.log = w.log ++ evs ++ [.saved (lastN n (cs.map (·.2.2)))] := by
  obtain ⟨h, h1, h2⟩ := C29_exit_saves_entered_partial n hn (A.stored w0.storage) cs hnr
  have h3 := entered_hist A hr hc
  rw [show (newSession A n w0 io).hist = History.loadCommands (History.init n) (A.stored w0.storage) from rfl, h1] at h3
  cases h3
  exact exitSession_saves A h2 hx

/-- **C29** (partial) The same with repetitions: for each of them one of the old commands is handed to the storage again. Re-executions: `C29_nothing_missed`. -/
theorem C29_session_repetitions_partial (n : Nat) (hn : 1 ≤ n) (w0 : World σ τ) (io : Io) (cs : List (List Bool × Str × Str)) (w w' : World σ τ)
    (hr : Entered A (newSession A n w0 io) cs w) (hc : ∀ c ∈ cs, ¬ Lex.Line c.2.2 [] ∧ ¬ BangLine c.2.2)
    (hd : DirectRepeats (A.stored w0.storage).getLast? cs) (hx : exitSession A w = .ok (w', none)) :
    w'.storage = A.store w.storage (lastN (min cs.length n) (A.stored w0.storage ++ kept (A.stored w0.storage).getLast? (cs.map (·.2.2)))) := by
  obtain ⟨h, h1, h2⟩ := C29_repetitions_partial n hn (A.stored w0.storage) cs hd
  have h3 := entered_hist A hr hc
  rw [show (newSession A n w0 io).hist = History.loadCommands (History.init n) (A.stored w0.storage) from rfl, h1] at h3
  cases h3
  exact (exitSession_saves A h2 hx).1

theorem load_base (cmds : List Str) : ∀ h : History.History,
    (History.loadCommands h cmds).idOfOldest + (History.loadCommands h cmds).buffer.length = h.idOfOldest + h.buffer.length + cmds.length := by
  induction cmds with
  | nil => intro h; rfl
  | cons c cs ih =>
    intro h
    have hi : (History.insert h c).idOfOldest + (History.insert h c).buffer.length = h.idOfOldest + h.buffer.length + 1 := by
      unfold History.insert
      simp only
      split <;> simp [List.length_dropLast] <;> omega
    have : History.loadCommands h (c :: cs) = History.loadCommands (History.insert h c) cs := rfl
    rw [this, ih, hi, List.length_cons]
    omega

theorem lastN_getLast {α} {n : Nat} {l : List α} {x : α} (h : (lastN n l).getLast? = some x) : l.getLast? = some x := by
  unfold lastN at h
  rw [List.getLast?_drop] at h
  split at h
  · cases h
  · exact h

/-- **C33** A new session's `history` lists the latest stored commands, numbered as if all of them had been entered in it, followed by the line `history` itself. -/
theorem C33_new_session_shows (n : Nat) (w0 : World σ τ) (io : Io) (fuel : Nat) (hne : (A.stored w0.storage).getLast? ≠ some bs!"history") :
    ∃ w', feed A (fuel + 1) bs!"history" (newSession A n w0 io) = .ok (w', none) ∧
      w'.io = io.put (HistoryList.render (lastN n (HistoryList.number (( A.stored w0.storage).length - n) (lastN n (A.stored w0.storage) ++ [bs!"history"])))) := by
  obtain ⟨r1, r2, r3, r4⟩ := C33_new_session_ready n (A.stored w0.storage)
  have hlist := C33_new_session_listing n (A.stored w0.storage)
  obtain ⟨h1, hh, _⟩ := History.newCommand_ok r1 bs!"history"
  have hent := History.entries_inserting r2
  have hfresh := History.new_fresh r1 hh (by rw [hent, r4, List.head?_reverse]; intro hc; exact hne (lastN_getLast hc))
  obtain ⟨f1, f2, f3, f4, f5⟩ := hfresh
  rw [hent, r4, r3] at f4
  have hb : History.base (History.loadCommands (History.init n) (A.stored w0.storage)) = (A.stored w0.storage).length := by
    unfold History.base
    rw [hent, load_base]
    simp [History.init]
  rw [hb] at f5
  have hlist1 : listing h1 = lastN n (HistoryList.number ((A.stored w0.storage).length - n) (lastN n (A.stored w0.storage) ++ [bs!"history"])) := by
    have hrev : h1.buffer.reverse = lastN n (lastN n (A.stored w0.storage) ++ [bs!"history"]) := by
      rw [f4, ← lastN_reverse]; simp
    unfold listing
    rw [hrev]
    have hln : ∀ (f : Nat) (l : List Str), lastN n (HistoryList.number f l) = HistoryList.number (f + (l.length - n)) (lastN n l) := by
      intro f l; unfold lastN; rw [drop_number, length_number]
    rw [hln]
    have hlen : h1.buffer.length = min n (min n (A.stored w0.storage).length + 1) := by rw [f4]; simp [length_lastN]
    have hlen2 : (lastN n (A.stored w0.storage)).length = min n (A.stored w0.storage).length := by rw [length_lastN]
    rw [hlen] at f5
    simp only [List.length_append, List.length_singleton, hlen2]
    congr 1
    omega
  have hl : Lex.Line bs!"history" [bs!"history"] := (split_iff _ _).1 rfl
  have hh' : History.newCommand (newSession A n w0 io).hist bs!"history" = .ok h1 := hh
  rw [feed_eq A hl (by simp), hh']
  have hs : scanGlobal A (feed A fuel) [bs!"history"] ((newSession A n w0 io).entered h1) =
      .ok ((((newSession A n w0 io).entered h1).note (.builtin .history)).put (HistoryList.render (listing h1)), .found) := by
    simp only [scanGlobal]
    simp only [if_true, show (bs!"history" = bs!"help") = False by decide, show (bs!"history" = bs!"exit") = False by decide, if_false]
    rw [show ((newSession A n w0 io).entered h1).hist = h1 from rfl, C23_listing_shown]
  simp only
  unfold body
  rw [hs, hlist1]
  exact ⟨_, rfl, rfl⟩

example : (feed Sample.app 1 bs!"history" (newSession Sample.app 2 { Sample.world with storage := [bs!"a", bs!"b", bs!"c"] } Sample.io)).map (fun r => listing r.1.hist) =
    .ok [(2, bs!"c"), (3, bs!"history")] := by rfl

end Verif.Props
