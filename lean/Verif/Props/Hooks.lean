import Verif.Proofs.Hooks
import Verif.Props.Reentrant

set_option linter.unusedSimpArgs false

/-!
# C115: actions and error handlers that use the session
-/

namespace Verif.Hooks
open Spec Props
open FromString (Value)
open Reentrant (Method Prog RApp Firm)

variable {σ τ : Type}

/-! ### The sample application -/

/-- The sample application with other functions: when the session begins it feeds `sub`; a wrong command shows the help; an exception feeds `add 1 2`; at the exit it feeds `add 1 2` and `deep`. -/
def sample : HApp (List Nat) (List Str) :=
  { rest := Sample.app
    prog := Reentrant.sample.prog
    onException := some fun _ _ => .call (.feed bs!"add 1 2") fun _ => .ret none
    onWrong := some fun _ => .call .help fun _ => .ret none
    enterGlobal := none
    exitGlobal := some (.act (.out bs!"bye\n") (.ret none))
    enterSession := some (.macro [bs!"sub"])
    exitSession := some (.macro [bs!"add 1 2", bs!"sub"]) }

open Reentrant (seen)

/-! ### C115 -/

/-- **C115** Functions that do not use the session are what they were: every line does the same as in the model in which only the functions of commands use it, hence (C107) as in the model in which no function
    does; and so do `Exit` and `Enter`. -/
theorem C115_same (R : RApp σ τ) (fuel : Nat) (w : World σ τ) :
    (∀ line, feed (ofR R) fuel line w = Reentrant.feed R fuel line w) ∧ (inner (ofR R) fuel).exit w = exitSession R.base w ∧
    enter (ofR R) (inner (ofR R) fuel) w = .ok (enterSession R.base w) := by
  refine ⟨fun line => by rw [feed, (inner_ofR R fuel).1], by rw [(inner_ofR R fuel).2], ?_⟩
  have h1 : (ofR R).enterGlobal = R.base.enterGlobal.map plain := rfl
  have h2 : (ofR R).enterSession = R.base.enterSession.map plain := rfl
  simp only [enter, h1, h2, optHook_plain, enterSession]
  rcases optAction R.base.enterGlobal .enterGlobal w with ⟨w1, _ | e⟩ <;> rfl

example : (feed (ofR (Reentrant.ofApp Sample.app)) 1 bs!"add 1 2" Sample.world).map (fun r => seen r.1) = .ok ([1], bs!"ok\n", [bs!"add 1 2"], 0, false, []) := by rfl

theorem catchAll_ok (H : HApp σ τ) (I : Inner σ τ) (line : Str) (w : World σ τ) (x : Option Exn) :
    catchAll H I line (match x with
      | none => .ok (w, .found)
      | some e => .ok (w, .thrown e)) = caught H I line x w := by
  cases x with
  | none => rfl
  | some e => cases e <;> rfl

/-- **C115** A line that designates a command runs its program, in the state in which the line is the newest one of the history. If it ends with an exception (other than a `bad_cast`, in a command with typed
    parameters), the program of the exception handler is run with the line and the exception; what this one throws leaves `Feed`. -/
theorem C115_runs (H : HApp σ τ) {line : Str} {toks : List Str} (hl : Lex.Line line toks) (ht : UserLine H.rest.plat toks) (fuel : Nat)
    (w : World σ τ) {h : History.History} (hh : History.newCommand w.hist line = .ok h) {path : Path} (hp : w.tree.locate w.current = some path)
    (hc : CleanLine H.rest.plat w.dis path toks) {c : Cmd} {args : List Str} {vals : List Value} (hx : Chosen H.rest.plat w.dis path toks (.cmd c args))
    (ha : Accepts H.rest.plat c args vals)
    (hb : ∀ w' x, run (inner H fuel) (fun w => decide (c.id ∈ w.tree.ids)) (H.prog c.fn vals) { w with hist := h } = .ok (w', x) → ¬ c.Swallows x) :
    feed H (fuel + 1) line w = match run (inner H fuel) (fun w => decide (c.id ∈ w.tree.ids)) (H.prog c.fn vals) { w with hist := h } with
      | .error f => .error f
      | .ok (w', x) => caught H (inner H fuel) line x (w'.note (.ran c vals w.snap x)) := by
  show feedWith H (inner H fuel) line w = _
  rw [feedWith_user H _ hl ht w hh]
  have hv := (verdict_run H.rest.plat c args vals).2 ha
  have hpf : Reentrant.take H.rest.plat (callProg H (inner H fuel)) (.cmd c args) (w.entered h) = Reentrant.ended c.kind (callProg H (inner H fuel) c vals (w.entered h)) := by
    simp only [Reentrant.take, Reentrant.perform, hv]
  have hcall : callProg H (inner H fuel) c vals (w.entered h) = match run (inner H fuel) (fun w => decide (c.id ∈ w.tree.ids)) (H.prog c.fn vals) { w with hist := h } with
      | .error f => .error f
      | .ok (w', x) => .ok (w'.note (.ran c vals w.snap x), x) := rfl
  have hsc : Reentrant.scanCurrent H.rest.plat (callProg H (inner H fuel)) toks (w.entered h) = Reentrant.scanCmds H.rest.plat (callProg H (inner H fuel)) toks path (w.entered h) := by
    have hp' : (w.entered h).tree.locate (w.entered h).current = some path := hp
    simp only [Reentrant.scanCurrent, hp']
  have hne : ∀ w', Reentrant.take H.rest.plat (callProg H (inner H fuel)) (.cmd c args) (w.entered h) ≠ .ok (w', .notFound) := by
    intro w'
    rw [hpf, hcall]
    cases hr : run (inner H fuel) (fun w => decide (c.id ∈ w.tree.ids)) (H.prog c.fn vals) { w with hist := h } with
    | error f => simp [Reentrant.ended]
    | ok v =>
      obtain ⟨w1, x⟩ := v
      have := hb w1 x hr
      cases x with
      | none => simp [Reentrant.ended]
      | some e =>
        cases e with
        | badCast s =>
          cases hk : c.kind with
          | freeform => simp [Reentrant.ended]
          | variadic ps => exact absurd ⟨by simp [hk], s, rfl⟩ this
        | std s => simp [Reentrant.ended]
        | other => simp [Reentrant.ended]
  unfold userPart
  rw [hsc, Reentrant.search_chosen _ _ (w.entered h) toks ht.nonempty path hc _ hx hne, hpf, hcall]
  cases hr : run (inner H fuel) (fun w => decide (c.id ∈ w.tree.ids)) (H.prog c.fn vals) { w with hist := h } with
  | error f => simp [Reentrant.ended, catchAll]
  | ok v =>
    obtain ⟨w1, x⟩ := v
    have := hb w1 x hr
    cases x with
    | none => rfl
    | some e =>
      cases e with
      | badCast s =>
        cases hk : c.kind with
        | freeform => rfl
        | variadic ps => exact absurd ⟨by simp [hk], s, rfl⟩ this
      | std s => rfl
      | other => rfl

/-- `boom a b` throws: the handler feeds `add 1 2`, which runs; nothing leaves `Feed`. The history has both lines. -/
example : (feed sample 2 bs!"add a b" Sample.world).map (fun r => (seen r.1, r.2)) = .ok (([1], [], [bs!"add 1 2", bs!"add a b"], 0, false, []), none) := by rfl

/-- What the handler throws leaves `Feed`. -/
example : (feed { sample with onException := some fun _ e => .ret (some e) } 1 bs!"add a b" Sample.world).map (fun r => (seen r.1, r.2)) =
    .ok (([], [], [bs!"add a b"], 0, false, []), some (.std bs!"no")) := by rfl

theorem scan_nothing (p : Platform) (call : Cmd → List Value → World σ τ → Except Fault (World σ τ × Option Exn)) (toks : List Str) (ht : toks ≠ []) (w : World σ τ) {path : Path}
    (hp : w.tree.locate w.current = some path) (hc : CleanLine p w.dis path toks) (hn : Nothing p w.dis path toks) : Reentrant.scanCurrent p call toks w = .ok (w, .notFound) := by
  simp only [Reentrant.scanCurrent, hp]
  have hst := Reentrant.starts_scanCmds p call w toks ht path
  rcases first_or_none p (cands w.dis toks path) with h1 | ⟨pre, y, post, h1, h2, h3⟩
  · exact hst.1 h1
  · exfalso
    have hy : y ∈ cands w.dis toks path := by rw [h1]; simp
    refine h3 (refused_rejected hc hy ?_)
    obtain ⟨cs, y⟩ := y
    cases y with
    | menu q => exact absurd ((designatesMenu_iff _ _ _ _).2 ⟨cs, hy⟩) (hn.menu q)
    | cmd c args => exact fun vals => hn.cmd c args vals ((designatesCmd_iff _ _ _ _ _).2 ⟨cs, hy⟩)

/-- **C115** A line that designates nothing runs the program of the wrong-command handler, in the state in which the line is the newest one of the history; what it throws is reported as the exception of a command is.
    Without a handler the message `wrong command: …` is written. -/
theorem C115_wrong (H : HApp σ τ) {line : Str} {toks : List Str} (hl : Lex.Line line toks) (ht : UserLine H.rest.plat toks) (fuel : Nat)
    (w : World σ τ) {h : History.History} (hh : History.newCommand w.hist line = .ok h) {path : Path} (hp : w.tree.locate w.current = some path)
    (hc : CleanLine H.rest.plat w.dis path toks) (hn : Nothing H.rest.plat w.dis path toks) :
    feed H (fuel + 1) line w = match H.onWrong with
      | none => .ok ((({ w with hist := h } : World σ τ).note (.wrong line)).put (bs!"wrong command: " ++ line ++ bs!"\n"), none)
      | some f =>
        match hook (inner H fuel) (f line) (({ w with hist := h } : World σ τ).note (.wrong line)) with
        | .error f => .error f
        | .ok (w', x) => caught H (inner H fuel) line x w' := by
  show feedWith H (inner H fuel) line w = _
  rw [feedWith_user H _ hl ht w hh]
  unfold userPart
  rw [scan_nothing _ _ toks ht.nonempty (w.entered h) hp hc hn]
  simp only [wrongCommand, World.entered]
  cases hf : H.onWrong with
  | none => rfl
  | some f =>
    simp only
    cases hr : hook (inner H fuel) (f line) (({ w with hist := h } : World σ τ).note (.wrong line)) with
    | error f => rfl
    | ok v =>
      obtain ⟨w', x⟩ := v
      simp only [← catchAll_ok]
      cases x <;> rfl

/-- **C115** With a wrong-command handler that calls `Help`, a wrong line shows just what `help` would show, and changes nothing but the history and the output. -/
theorem C115_wrong_help (H : HApp σ τ) {line : Str} {toks : List Str} (hl : Lex.Line line toks) (ht : UserLine H.rest.plat toks) (fuel : Nat)
    (w : World σ τ) (hw : History.WF w.hist) {path : Path} (hp : w.tree.locate w.current = some path)
    (hc : CleanLine H.rest.plat w.dis path toks) (hn : Nothing H.rest.plat w.dis path toks) (hf : H.onWrong = some fun _ => .call .help fun _ => .ret none) :
    ∃ w1 w2, feed H (fuel + 1) line w = .ok (w1, none) ∧ feed H (fuel + 1) bs!"help" w = .ok (w2, none) ∧ w1.io = w2.io ∧
      w1.app = w.app ∧ w1.tree = w.tree ∧ w1.dis = w.dis ∧ w1.current = w.current ∧ w1.exit = w.exit ∧ w1.storage = w.storage := by
  obtain ⟨h1, hh1, _⟩ := History.newCommand_ok hw line
  obtain ⟨h2, hh2, _⟩ := History.newCommand_ok hw bs!"help"
  have hlh : Lex.Line bs!"help" [bs!"help"] := (split_iff _ _).1 rfl
  have e1 : feed H (fuel + 1) line w = .ok ((({ w with hist := h1 } : World σ τ).note (.wrong line)).put (bs!"Commands available:\n" ++ globalCmds.flatMap Cmd.helpText ++ mainHelp w.dis path), none) := by
    rw [C115_wrong H hl ht fuel w hh1 hp hc hn, hf]
    have : helpCmd (({ w with hist := h1 } : World σ τ).note (.wrong line)) = .ok ((({ w with hist := h1 } : World σ τ).note (.wrong line)).put (bs!"Commands available:\n" ++ globalCmds.flatMap Cmd.helpText ++ mainHelp w.dis path)) := by
      have hp' : (({ w with hist := h1 } : World σ τ).note (.wrong line)).tree.locate (({ w with hist := h1 } : World σ τ).note (.wrong line)).current = some path := hp
      simp only [helpCmd, hp']
      rfl
    simp only [hook, run, method, this, Except.map, caught]
  have e2 : feed H (fuel + 1) bs!"help" w = .ok ((({ w with hist := h2 } : World σ τ).note (.builtin .help)).put (bs!"Commands available:\n" ++ globalCmds.flatMap Cmd.helpText ++ mainHelp w.dis path), none) := by
    show feedWith H (inner H fuel) bs!"help" w = _
    rw [feedWith_eq H _ hlh (by simp), hh2]
    have : helpCmd ((w.entered h2).note (.builtin .help)) = .ok (((w.entered h2).note (.builtin .help)).put (bs!"Commands available:\n" ++ globalCmds.flatMap Cmd.helpText ++ mainHelp w.dis path)) := by
      have hp' : ((w.entered h2).note (.builtin .help)).tree.locate ((w.entered h2).note (.builtin .help)).current = some path := hp
      simp only [helpCmd, hp']
      rfl
    simp only [body, scanGlobal, if_true, this, catchAll]
    rfl
  exact ⟨_, _, e1, e2, rfl, rfl, rfl, rfl, rfl, rfl, rfl⟩

example : (feed sample 2 bs!"nope" { Sample.world with current := 12 }).toOption.map (fun r => r.1.io.out) = (feed sample 2 bs!"help" { Sample.world with current := 12 }).toOption.map (fun r => r.1.io.out) := by
  rfl

/-- **C115** A wrong-command handler that feeds another line (an alias, a correction) executes that line, after the wrong one in the history. -/
theorem C115_wrong_feed (H : HApp σ τ) {line other : Str} {toks : List Str} (hl : Lex.Line line toks) (ht : UserLine H.rest.plat toks) (fuel : Nat)
    (w : World σ τ) {h : History.History} (hh : History.newCommand w.hist line = .ok h) {path : Path} (hp : w.tree.locate w.current = some path)
    (hc : CleanLine H.rest.plat w.dis path toks) (hn : Nothing H.rest.plat w.dis path toks) {f : Str → Prog σ} (hf : H.onWrong = some f) (hg : f line = .call (.feed other) fun _ => .ret none) :
    feed H (fuel + 1) line w = (feed H fuel other (({ w with hist := h } : World σ τ).note (.wrong line))).map fun r => (r.1, none) := by
  rw [C115_wrong H hl ht fuel w hh hp hc hn, hf]
  simp only [hg, hook, run, method]
  unfold feed
  rcases (inner H fuel).feed other (({ w with hist := h } : World σ τ).note (.wrong line)) with f | ⟨w', x⟩ <;> rfl

example : (feed { sample with onWrong := some fun _ => .call (.feed bs!"add 1 2") fun _ => .ret none } 2 bs!"plus" Sample.world).map (fun r => (seen r.1, r.2)) =
    .ok (([1], [], [bs!"add 1 2", bs!"plus"], 0, false, []), none) := by rfl

theorem quiet_run (I : Inner σ τ) (ok : World σ τ → Bool) (q : Prog σ) : Quiet q → ∀ (w w' : World σ τ) (x : Option Exn), run I ok q w = .ok (w', x) → x = none := by
  induction q with
  | ret x => intro hq w w' x h; cases h; exact hq
  | get k ih => intro hq w w' x h; exact ih _ (hq _) _ _ _ h
  | set s k ih => intro hq w w' x h; exact ih hq _ _ _ h
  | act a k ih => intro hq w w' x h; exact ih hq _ _ _ h
  | touch k ih =>
    intro hq w w' x h
    simp only [run] at h
    split at h
    · exact ih hq _ _ _ h
    · cases h
  | call m k ih =>
    intro hq w w' x h
    simp only [run] at h
    split at h
    · cases h
    · exact ih _ (hq _) _ _ _ h

/-- **C115** If the exception handler never throws (whatever the methods that it calls do), no exception leaves `Feed`, even if commands, actions and the handler of wrong commands throw, however deep they call `Feed`
    in each other. -/
theorem C115_contained (H : HApp σ τ) (hq : ∀ f, H.onException = some f → ∀ line e, Quiet (f line e)) (fuel : Nat) (line : Str) (w w' : World σ τ) (x : Option Exn)
    (h : feed H fuel line w = .ok (w', x)) : x = none := by
  cases fuel with
  | zero => cases h
  | succ fuel =>
    change feedWith H (inner H fuel) line w = _ at h
    obtain ⟨toks, hl⟩ := line_exists line
    by_cases ht : toks = []
    · subst ht; rw [feedWith_blank H _ hl] at h; cases h; rfl
    · rw [feedWith_eq H _ hl ht] at h
      split at h
      · cases h
      · unfold catchAll at h
        split at h
        · cases h
        · cases h; rfl
        · unfold reportException at h
          split at h
          · rename_i f hf; exact quiet_run _ _ _ (hq f hf _ _) _ _ _ h
          · cases h; rfl
        · cases h; rfl

/-- The handler of `sample` is of that kind; `exit` with actions that throw. -/
example : (∀ f, sample.onException = some f → ∀ line e, Quiet (f line e)) ∧
    (feed { sample with exitGlobal := some (.ret (some (.std bs!"late"))) } 3 bs!"exit" Sample.world).map (fun r => (r.1.exit, r.2)) = .ok (false, none) := by
  refine ⟨?_, rfl⟩
  intro f hf line e
  simp only [sample, Option.some.injEq] at hf
  subst hf
  intro x
  rfl

theorem run_macro (H : HApp σ τ) (fuel : Nat) (ok : World σ τ → Bool) (lines : List Str) : ∀ w : World σ τ,
    run (inner H fuel) ok (.macro lines) w = (typed H fuel lines w).map fun w' => (w', none) := by
  induction lines with
  | nil => intro w; rfl
  | cons l ls ih =>
    intro w
    simp only [Prog.macro, List.foldr, run, method, typed, feed]
    rcases (inner H fuel).feed l w with f | v
    · rfl
    · exact ih v.1

/-- **C115** Actions at the exit may feed lines: with the line `exit` (and with `Exit`) these are executed one after the other, those of the session before those of the `Cli`; then the history is saved, as it is after them,
    and the session has ended. -/
theorem C115_exit (H : HApp σ τ) (fuel : Nat) (w w1 w2 : World σ τ) (ls ls' cmds : List Str) (h1 : H.exitSession = some (.macro ls)) (h2 : H.exitGlobal = some (.macro ls'))
    (t1 : typed H fuel ls (w.note .exitSession) = .ok w1) (t2 : typed H fuel ls' (w1.note .exitGlobal) = .ok w2) (hg : History.getCommands w2.hist = .ok cmds)
    (hs : H.rest.storeFails w2.storage cmds = none) :
    (inner H (fuel + 1)).exit w = .ok ({ w2.note (.saved cmds) with storage := H.rest.store w2.storage cmds, exit := true }, none) ∧
    ∀ line v h, Lex.Line line [bs!"exit"] → History.newCommand v.hist line = .ok h → ({ v with hist := h } : World σ τ).note (.builtin .exit) = w →
      feed H (fuel + 1) line v = .ok ({ w2.note (.saved cmds) with storage := H.rest.store w2.storage cmds, exit := true }, none) := by
  have e : exit H (inner H fuel) w = .ok ({ w2.note (.saved cmds) with storage := H.rest.store w2.storage cmds, exit := true }, none) := by
    simp only [exit, h1, h2, hook, optHook, run_macro, t1, t2, Except.map, hg, hs]
  refine ⟨e, ?_⟩
  intro line v h hl hh hv
  show feedWith H (inner H fuel) line v = _
  rw [feedWith_eq H _ hl (by simp), hh]
  simp only [body, scanGlobal_exit, exitPart]
  have : (v.entered h).note (.builtin .exit) = w := hv
  rw [this, e]
  rfl

/-- The lines that the action feeds are executed and saved, after `exit`. -/
example : (feed { sample with exitGlobal := some (.macro [bs!"deep"]) } 2 bs!"exit" Sample.world).map (fun r => (seen r.1, r.2)) =
    .ok (([1], [], [bs!"deep", bs!"sub", bs!"add 1 2", bs!"exit"], 12, true, [bs!"exit", bs!"add 1 2", bs!"sub", bs!"deep"]), none) := by rfl

/-- **C115** Actions at the beginning may feed lines: those of the `Cli` are executed before those of the session, as if the user had typed them before anything else. -/
theorem C115_enter (H : HApp σ τ) (fuel : Nat) (w w1 : World σ τ) (ls ls' : List Str) (h1 : H.enterGlobal = some (.macro ls)) (h2 : H.enterSession = some (.macro ls'))
    (t1 : typed H fuel ls (w.note .enterGlobal) = .ok w1) :
    enter H (inner H fuel) w = (typed H fuel ls' (w1.note .enterSession)).map fun w' => (w', none) := by
  simp only [enter, h1, h2, optHook, hook, run_macro, t1, Except.map]

example : (enter { sample with enterGlobal := some (.macro [bs!"add 1 2"]) } (inner sample 2) Sample.world).map (fun r => (seen r.1, (prompt r.1).map (fun w => w.io.out))) =
    .ok (([1], [], [bs!"sub", bs!"add 1 2"], 3, false, []), .ok bs!"sub> ") := by rfl

theorem uses_true (H : HApp σ τ) : H.Hooks (·.Uses (fun _ => True) (fun _ => True)) :=
  ⟨fun _ _ _ _ => Prog.uses_true _, fun _ _ _ => Prog.uses_true _, fun _ _ => Prog.uses_true _, fun _ _ => Prog.uses_true _, fun _ _ => Prog.uses_true _, fun _ _ => Prog.uses_true _⟩

/-- **C115** Once `Exit` has been completed it stays so, whatever lines are executed and whatever functions of the user call; no prompt is written any more. -/
theorem C115_no_prompt (H : HApp σ τ) (fuel : Nat) (w w' : World σ τ) (x : Option Exn) (he : w.exit = true) (h : (∃ line, feed H fuel line w = .ok (w', x)) ∨ (inner H fuel).exit w = .ok (w', x)) :
    w'.exit = true ∧ prompt w' = .ok w' := by
  have F : Frame (fun _ => True) (fun _ => True) (fun w w' : World σ τ => w.exit = true → w'.exit = true) :=
    ⟨fun _ h => h, fun h1 h2 h => h2 (h1 h), fun _ _ h => h, fun w a _ h => (act_same w a).1.exit ▸ h, fun _ _ h => h, fun _ _ h => h, fun _ _ h => h, fun _ _ _ h => h, fun _ _ _ h => h,
      fun _ _ _ => rfl, fun _ _ h => h⟩
  have K := keeps_inner F (fun fn args => Prog.uses_true (H.prog fn args)) (uses_true H) fuel
  have : w'.exit = true := by
    rcases h with ⟨line, h⟩ | h
    · exact (K.feed _ _ _ _ h).1 he
    · exact (K.exit _ _ _ h).1 he
  exact ⟨this, by simp [prompt, this]⟩

example : (feed sample 3 bs!"nope" { Sample.world with exit := true }).map (fun r => r.1.exit) = .ok true := by rfl

/-! ### Which uses are safe -/

/-- **C115** (partial) If no function of the user removes a menu, throws `bad_cast` or goes to a menu that does not exist from the beginning, and no command uses its captures after it has removed something or called a method
    that executes functions of the user, then whatever lines are typed, and whatever methods all the functions call, no destroyed menu or command is used and no iterator is invalid; afterwards the current menu exists and the
    prompt can be shown. Missing: what is refuted in C107. -/
theorem C115_safe_partial (H : HApp σ τ) (K P : Id → Prop) (hC : Careful K P H) (fuel : Nat) (lines : List Str) : ∀ (w : World σ τ), Firm K P w →
    (∀ f, typed H fuel lines w = .error f → f ≠ .ub .dangling ∧ f ≠ .ub .iteratorInvalidation) ∧
    (∀ w', typed H fuel lines w = .ok w' → Firm K P w' ∧ ∃ w'', prompt w' = .ok w'') := by
  induction lines with
  | nil =>
    intro w hw
    refine ⟨fun f h => (by cases h), fun w' h => ?_⟩
    cases h
    refine ⟨hw, ?_⟩
    unfold prompt
    split
    · exact ⟨_, rfl⟩
    · cases hl : w.tree.locate w.current with
      | none => exact absurd hl (Tree.locate_some hw.current)
      | some p =>
        obtain ⟨m, k, q, rfl, _⟩ := Tree.locate_self hl
        exact ⟨_, rfl⟩
  | cons l ls ih =>
    intro w hw
    have G := good_inner hC fuel
    simp only [typed, feed]
    cases hf : (inner H fuel).feed l w with
    | error f =>
      refine ⟨fun f' h => ?_, fun w' h => by cases h⟩
      cases h
      rcases (G.feed l w hw).1 f hf with rfl | ⟨p, ty, s, u, hu, rfl⟩ | rfl | rfl
      · simp
      · rcases C07_conversion_ub_partial p ty s u hu with ⟨rfl, _⟩ | ⟨rfl, _⟩ <;> simp
      · simp
      · simp
    | ok v => exact ih v.1 (G.keeps.feed l w v.1 v.2 hf hw).1

example : Careful (fun i => i = 0 ∨ i = 3 ∨ i = 12) (fun _ => False) sample ∧ Firm (fun i => i = 0 ∨ i = 3 ∨ i = 12) (fun _ => False) Sample.world ∧
    (typed sample 3 [bs!"add a b", bs!"odd", bs!"exit"] Sample.world).map seen =
      .ok ([1, 1], bs!"bye\n", [bs!"sub", bs!"add 1 2", bs!"exit", bs!"odd", bs!"add 1 2", bs!"add a b"], 3, true, [bs!"add a b", bs!"add 1 2", bs!"odd", bs!"exit", bs!"add 1 2", bs!"sub"]) := by
  refine ⟨⟨?_, ?_, ⟨?_, ?_, ?_, ?_, ?_, ?_⟩, ?_⟩, ⟨by simp [Sample.world, Sample.tree, Sample.kids, Sample.subKids, Sample.deepKids, Tree.menuIds, Forest.menuIds, Sample.root, Sample.sub, Sample.deep, Sample.info], fun i h => h.elim, by decide⟩, ?_⟩
  · intro fn args
    simp only [sample, Reentrant.sample]
    repeat' split
    all_goals simp [Prog.Uses, Prog.macro, KeepsMenus]
  · intro c args
    simp only [sample, Reentrant.sample]
    repeat' split
    all_goals simp [Prog.Mild, Prog.macro, Reentrant.removes, Method.inert]
    exact fun x h _ _ => h
  · intro f hf line e; simp only [sample, Option.some.injEq] at hf; subst hf; simp [Prog.Uses, NoCast]
  · intro f hf line; simp only [sample, Option.some.injEq] at hf; subst hf; simp [Prog.Uses, NoCast]
  · intro q hq; simp [sample] at hq
  · intro q hq; simp only [sample, Option.some.injEq] at hq; subst hq; simp [Prog.Uses, NoCast, KeepsMenus]
  · intro q hq; simp only [sample, Option.some.injEq] at hq; subst hq; simp [Prog.Uses, NoCast, Prog.macro]
  · intro q hq; simp only [sample, Option.some.injEq] at hq; subst hq; simp [Prog.Uses, NoCast, Prog.macro]
  · intro st cmds what; simp [sample, Sample.app]
  · rfl

/-! ### Refutations -/

/-- **C115** (refutation) A handler of wrong commands that feeds a wrong line again never ends: however deep the stack, it overflows. -/
theorem C115_refuted_wrong (H : HApp σ τ) {line : Str} {toks : List Str} (hl : Lex.Line line toks) (ht : UserLine H.rest.plat toks) {f : Str → Prog σ} (hf : H.onWrong = some f)
    (k : Option Exn → Prog σ) (hg : f line = .call (.feed line) k) (fuel : Nat) :
    ∀ (w : World σ τ) {path : Path}, History.WF w.hist → w.tree.locate w.current = some path → CleanLine H.rest.plat w.dis path toks → Nothing H.rest.plat w.dis path toks →
    feed H fuel line w = .error .stackOverflow := by
  induction fuel with
  | zero => intro w path _ _ _ _; rfl
  | succ fuel ih =>
    intro w path hw hp hc hn
    obtain ⟨h, hh, hwf, _⟩ := History.newCommand_ok hw line
    have e := ih (({ w with hist := h } : World σ τ).note (.wrong line)) hwf hp hc hn
    rw [C115_wrong H hl ht fuel w hh hp hc hn, hf]
    unfold feed at e
    simp only [hg, hook, run, method, e]

example : ∀ fuel < 5, (match feed { sample with onWrong := some fun l => .call (.feed l) fun _ => .ret none } fuel bs!"nope" Sample.world with | .error f => some f | .ok _ => none) = some .stackOverflow := by
  decide +kernel

/-- **C115** (refutation) An exit action that calls `Exit` never ends. -/
theorem C115_refuted_exit (H : HApp σ τ) (k : Option Exn → Prog σ) (hx : H.exitSession = some (.call .exit k)) (fuel : Nat) :
    ∀ w : World σ τ, (inner H fuel).exit w = .error .stackOverflow := by
  induction fuel with
  | zero => intro w; simp only [inner, exit, hx, hook, run, method]
  | succ fuel ih =>
    intro w
    show exit H (inner H fuel) w = _
    simp only [exit, hx, hook, run, method, ih]

example : (match feed { sample with exitSession := some (.call .exit fun _ => .ret none) } 4 bs!"exit" Sample.world with | .error f => some f | .ok _ => none) = some .stackOverflow := by
  decide +kernel

/-- **C115** (refutation) An exception handler that feeds the line again, when the command throws again, never ends. -/
theorem C115_refuted_exception (H : HApp σ τ) {line : Str} {toks : List Str} (hl : Lex.Line line toks) (ht : UserLine H.rest.plat toks) {c : Cmd} {args : List Str} {vals : List Value}
    (ha : Accepts H.rest.plat c args vals) (what : Str) (hm : H.prog c.fn vals = .ret (some (.std what))) {f : Str → Exn → Prog σ} (hf : H.onException = some f) (k : Option Exn → Prog σ)
    (hg : f line (.std what) = .call (.feed line) k) (fuel : Nat) :
    ∀ (w : World σ τ) {path : Path}, History.WF w.hist → w.tree.locate w.current = some path → CleanLine H.rest.plat w.dis path toks → Chosen H.rest.plat w.dis path toks (.cmd c args) →
    feed H fuel line w = .error .stackOverflow := by
  induction fuel with
  | zero => intro w path _ _ _ _; rfl
  | succ fuel ih =>
    intro w path hw hp hc hx
    obtain ⟨h, hh, hwf, _⟩ := History.newCommand_ok hw line
    have hr : run (inner H fuel) (fun w => decide (c.id ∈ w.tree.ids)) (H.prog c.fn vals) { w with hist := h } = .ok ({ w with hist := h }, some (.std what)) := by rw [hm]; rfl
    rw [C115_runs H hl ht fuel w hh hp hc hx ha (fun w' x hx => by rw [hr] at hx; cases hx; rintro ⟨_, s, hs⟩; cases hs), hr]
    have e := ih (((({ w with hist := h } : World σ τ).note (.ran c vals w.snap (some (.std what)))).note (.reported line (.std what)))) hwf hp hc hx
    unfold feed at e
    simp only [caught, hf, hg, hook, run, method, e]

example : ∀ fuel < 5, (match feed { sample with onException := some fun l _ => .call (.feed l) fun _ => .ret none } fuel bs!"add a b" Sample.world with | .error f => some f | .ok _ => none) = some .stackOverflow := by
  decide +kernel

end Verif.Hooks
