import Verif.Proofs.Reentrant
import Verif.Props.Sample
import Verif.Props.Menus

set_option linter.unusedSimpArgs false

/-!
# C107: handlers that use the session they are called from
-/

namespace Verif.Reentrant
open Spec Props
open FromString (Value)

variable {σ τ : Type}

/-! ### The sample application -/

/-- The sample application with other functions: `go` feeds two lines and goes to the menu `deep`, `boom` calls `Exit` and shows the prompt, `cast` feeds `boom` and what then is wrong,
    `odd` uses its captures and removes itself, `help` (free-form) shows the menus and the history. -/
def sample : RApp (List Nat) (List Str) :=
  { rest := Sample.app
    prog := fun fn _ =>
      if fn = 1 then .get fun s => .set (1 :: s) (.ret none)
      else if fn = 2 then .ret (some (.std bs!"no"))
      else if fn = 4 then .macro [bs!"add 1 2", bs!"add a b", bs!"deep"]
      else if fn = 6 then .call .exit fun x => .act (.out bs!"bye\n") (.call .prompt fun _ => .ret x)
      else if fn = 9 then .touch (.act (.remove 9) (.ret none))
      else if fn = 11 then .call .help fun _ => .call .history fun _ => .ret none
      else .ret none }

/-- What can be seen of a state. -/
def seen (w : World (List Nat) (List Str)) : List Nat × Str × List Str × Nat × Bool × List Str := (w.app, w.io.out, w.hist.buffer, w.current, w.exit, w.storage)

/-! ### C107 -/

/-- **C107** A function that does not use the session is what it was: with the programs made of the effects of handlers, every line does the same in both models. -/
theorem C107_same (A : App σ τ) (fuel : Nat) (line : Str) (w : World σ τ) : feed (ofApp A) fuel line w = Verif.feed A fuel line w := by
  rw [feed_same]

example : (feed (ofApp Sample.app) 1 bs!"add 1 2" Sample.world).map (fun r => seen r.1) = .ok ([1], bs!"ok\n", [bs!"add 1 2"], 0, false, []) := by rfl

/-- **C107** A line that designates a command runs its program, in the state in which the line is the newest one of the history. If the program faults so does the line; if it ends
    with an exception (other than a `bad_cast`, in a command with typed parameters) this is reported with that line. -/
theorem C107_runs (R : RApp σ τ) {line : Str} {toks : List Str} (hl : Lex.Line line toks) (ht : UserLine R.base.plat toks) (fuel : Nat)
    (w : World σ τ) {h : History.History} (hh : History.newCommand w.hist line = .ok h) {path : Path} (hp : w.tree.locate w.current = some path)
    (hc : CleanLine R.base.plat w.dis path toks) {c : Cmd} {args : List Str} {vals : List Value} (hx : Chosen R.base.plat w.dis path toks (.cmd c args))
    (ha : Accepts R.base.plat c args vals)
    (hb : ∀ w' x, run R (feed R fuel) c (R.prog c.fn vals) { w with hist := h } = .ok (w', x) → ¬ c.Swallows x) :
    feed R (fuel + 1) line w = match run R (feed R fuel) c (R.prog c.fn vals) { w with hist := h } with
      | .error f => .error f
      | .ok (w', x) => .ok (afterHandler R.base line x (w'.note (.ran c vals w.snap x))) :=
  feed_chosen R hl ht fuel w hh hp hc hx ha hb

theorem run_macro (R : RApp σ τ) (fuel : Nat) (c : Cmd) (lines : List Str) : ∀ w : World σ τ,
    run R (feed R fuel) c (.macro lines) w = (typed R fuel lines w).map fun w' => (w', none) := by
  induction lines with
  | nil => intro w; rfl
  | cons l ls ih =>
    intro w
    simp only [Prog.macro, List.foldr, run, method, typed]
    cases feed R fuel l w with
    | error f => rfl
    | ok v => exact ih v.1

/-- **C107** A handler that feeds lines to its session does what the user would do by typing them, one after the other, after the line that called it: the same commands, output, exceptions
    reported with the same lines, menu, history (the line of the handler before those it feeds). -/
theorem C107_macro (R : RApp σ τ) {line : Str} {toks : List Str} (hl : Lex.Line line toks) (ht : UserLine R.base.plat toks) (fuel : Nat)
    (w : World σ τ) {h : History.History} (hh : History.newCommand w.hist line = .ok h) {path : Path} (hp : w.tree.locate w.current = some path)
    (hc : CleanLine R.base.plat w.dis path toks) {c : Cmd} {args : List Str} {vals : List Value} (hx : Chosen R.base.plat w.dis path toks (.cmd c args))
    (ha : Accepts R.base.plat c args vals) (lines : List Str) (hm : R.prog c.fn vals = .macro lines) :
    feed R (fuel + 1) line w = (typed R fuel lines { w with hist := h }).map fun w' => (w'.note (.ran c vals w.snap none), none) := by
  have hr := run_macro R fuel c lines { w with hist := h }
  rw [C107_runs R hl ht fuel w hh hp hc hx ha, hm, hr]
  · cases typed R fuel lines { w with hist := h } <;> rfl
  · intro w' x hx
    rw [hm, hr] at hx
    cases ht : typed R fuel lines { w with hist := h } with
    | error f => rw [ht] at hx; cases hx
    | ok v => rw [ht] at hx; cases hx; rintro ⟨_, what, hw⟩; cases hw

/-- `go` in the menu `sub`: the first line fed is a command of the parent menu, which cannot be used without its name; the second neither; the third goes to `deep`. -/
example : (feed sample 2 bs!"go" { Sample.world with current := 3 }).map (fun r => seen r.1) =
    .ok ([], bs!"wrong command: add 1 2\nwrong command: add a b\n", [bs!"deep", bs!"add a b", bs!"add 1 2", bs!"go"], 12, false, []) := by rfl

/-- A program that calls `Exit` first, and then does anything. -/
theorem exit_stays (R : RApp σ τ) {fuel : Nat} {c : Cmd} {q : Prog σ} {w w' : World σ τ} {x : Option Exn} (he : w.exit = true)
    (h : run R (feed R fuel) c q w = .ok (w', x)) : w'.exit = true := by
  have F : Framed R (fun _ => True) (fun _ => True) (fun w w' : World σ τ => w.exit = true → w'.exit = true) :=
    framed_of (App.only_true _) (fun _ h => h) (fun h1 h2 h => h2 (h1 h)) (fun _ _ h => h) (fun w a _ h => (act_same w a).1.exit ▸ h) (fun _ _ h => h) (fun _ _ h => h)
      (fun _ _ h => h) (fun _ _ _ h => h) (fun _ _ _ h => h) (fun _ _ _ => rfl) (fun _ _ h => h)
  exact framed_run F _ (fun line w w' x h => frame F (fun _ _ => Prog.uses_true _) h) c q (Prog.uses_true q) _ _ _ h he

/-- **C107** Once `Exit` has been completed, by the user or by a program, it stays so whatever lines are executed, and no prompt is written any more. -/
theorem C107_no_prompt (R : RApp σ τ) (fuel : Nat) (line : Str) (w w' : World σ τ) (x : Option Exn) (he : w.exit = true) (h : feed R fuel line w = .ok (w', x)) :
    w'.exit = true ∧ prompt w' = .ok w' := by
  have F : Framed R (fun _ => True) (fun _ => True) (fun w w' : World σ τ => w.exit = true → w'.exit = true) :=
    framed_of (App.only_true _) (fun _ h => h) (fun h1 h2 h => h2 (h1 h)) (fun _ _ h => h) (fun w a _ h => (act_same w a).1.exit ▸ h) (fun _ _ h => h) (fun _ _ h => h)
      (fun _ _ h => h) (fun _ _ _ h => h) (fun _ _ _ h => h) (fun _ _ _ => rfl) (fun _ _ h => h)
  have := frame F (fun _ _ => Prog.uses_true _) h he
  exact ⟨this, by simp [prompt, this]⟩

example : (feed sample 2 bs!"go" { Sample.world with current := 3, exit := true }).map (fun r => r.1.exit) = .ok true := by rfl

/-- **C107** A handler may close its session with `Exit`: the exit actions are run and the history, with the line that called the handler, is saved, as with the command `exit`; whatever the
    handler does afterwards, the prompt is not shown any more. -/
theorem C107_exit (R : RApp σ τ) {line : Str} {toks : List Str} (hl : Lex.Line line toks) (ht : UserLine R.base.plat toks) (fuel : Nat)
    (w : World σ τ) {h : History.History} (hh : History.newCommand w.hist line = .ok h) {path : Path} (hp : w.tree.locate w.current = some path)
    (hc : CleanLine R.base.plat w.dis path toks) {c : Cmd} {args : List Str} {vals : List Value} (hx : Chosen R.base.plat w.dis path toks (.cmd c args))
    (ha : Accepts R.base.plat c args vals) (k : Option Exn → Prog σ) (hm : R.prog c.fn vals = .call .exit k)
    (w1 : World σ τ) (he : exitSession R.base { w with hist := h } = .ok (w1, none))
    (hb : ∀ w' x, run R (feed R fuel) c (k none) w1 = .ok (w', x) → ¬ c.Swallows x) :
    w1.exit = true ∧
    (∃ cmds, History.getCommands h = .ok cmds ∧ Event.saved cmds ∈ w1.log) ∧
    feed R (fuel + 1) line w = (match run R (feed R fuel) c (k none) w1 with
      | .error f => .error f
      | .ok (w', x) => .ok (afterHandler R.base line x (w'.note (.ran c vals w.snap x)))) ∧
    ∀ w' x, run R (feed R fuel) c (k none) w1 = .ok (w', x) → w'.exit = true ∧ prompt w' = .ok w' := by
  have hr : run R (feed R fuel) c (R.prog c.fn vals) { w with hist := h } = run R (feed R fuel) c (k none) w1 := by
    rw [hm]; simp only [run, method, he]
  have h1 : w1.exit = true ∧ ∃ cmds, History.getCommands h = .ok cmds ∧ Event.saved cmds ∈ w1.log := by
    have act_hist : ∀ (a : Option (σ → Effect σ)) ev (u : World σ τ), (optAction a ev u).1.hist = u.hist := by
      intro a ev u
      cases a with
      | none => rfl
      | some f => exact (effect_same (u.note ev) _).1.hist
    unfold exitSession at he
    split at he
    · cases he
    · rename_i f hf
      split at he
      · cases he
      · rename_i u hu
        split at he
        · cases he
        · rename_i u2 hu2
          split at he
          · cases he
          · rename_i cmds hg
            have e1 : u.hist = h := by
              have := (effect_same (({ w with hist := h } : World σ τ).note .exitSession) (f w.app)).1.hist
              have hu' : u = (callAction f .exitSession { w with hist := h }).1 := by rw [hu]
              rw [hu']; exact this
            have e2 : u2.hist = u.hist := by
              have := act_hist R.base.exitGlobal .exitGlobal u
              rw [hu2] at this; exact this
            rw [e2, e1] at hg
            split at he
            · cases he
            · cases he
              exact ⟨rfl, cmds, hg, by simp [World.note]⟩
  refine ⟨h1.1, h1.2, ?_, ?_⟩
  · rw [C107_runs R hl ht fuel w hh hp hc hx ha (fun w' x hx => hb w' x (by rw [← hr]; exact hx)), hr]
  · intro w' x hx
    have := exit_stays R h1.1 hx
    exact ⟨this, by simp [prompt, this]⟩

/-- `boom` says goodbye after `Exit`, and the prompt it asks for does not appear. -/
example : (feed sample 1 bs!"boom" Sample.world).map (fun r => (seen r.1, r.2)) = .ok (([], bs!"bye\n", [bs!"boom"], 0, true, [bs!"boom"]), none) := by rfl

/-- **C107** The methods that programs may call do what the built-in commands do, apart from the note of the command in the log: `Help`, `Exit`, `ShowHistory` and `ExecFromHistory`. -/
theorem C107_builtins (R : RApp σ τ) (fd : Feeder σ τ) (w : World σ τ) :
    scanGlobal R.base fd [bs!"help"] w = (method R fd .help (w.note (.builtin .help))).map (fun r => (r.1, builtinOutcome r.2)) ∧
    scanGlobal R.base fd [bs!"exit"] w = (method R fd .exit (w.note (.builtin .exit))).map (fun r => (r.1, builtinOutcome r.2)) ∧
    scanGlobal R.base fd [bs!"history"] w = (method R fd .history (w.note (.builtin .history))).map (fun r => (r.1, builtinOutcome r.2)) ∧
    ∀ arg n, Number.SpellsNat arg n → n < 2 ^ 32 →
      scanGlobal R.base fd [bs!"!", arg] w = (method R fd (.again n) (w.note (.builtin (.bang n)))).map (fun r => (r.1, builtinOutcome r.2)) := by
  refine ⟨?_, ?_, ?_, ?_⟩
  · simp only [scanGlobal, if_true, bind, Except.bind, method]
    cases helpCmd (w.note (.builtin .help)) <;> rfl
  · have h1 : ¬ bs!"exit" = bs!"help" := by decide
    simp only [scanGlobal, h1, if_false, if_true, bind, Except.bind, method]
    cases exitSession R.base (w.note (.builtin .exit)) <;> rfl
  · have h1 : ¬ bs!"history" = bs!"help" := by decide
    have h2 : ¬ bs!"history" = bs!"exit" := by decide
    simp only [scanGlobal, h1, h2, if_false, if_true, bind, Except.bind, method]
    have : (w.note (.builtin .history)).hist = w.hist := rfl
    rw [this]
    cases History.show w.hist <;> rfl
  · intro arg n h1 h2
    rw [scanGlobal_bang R.base fd w h1 h2]
    simp only [bangPart, method]
    have : (w.note (.builtin (.bang n))).hist = w.hist := rfl
    rw [this]
    cases History.forgetLatest w.hist with
    | error f => rfl
    | ok h =>
      simp only
      cases History.at h n with
      | error f => rfl
      | ok o =>
        cases o with
        | none => rfl
        | some cmd =>
          simp only
          cases fd cmd { w.note (.builtin (.bang n)) with hist := h } with
          | error f => rfl
          | ok v => rfl

/-- `odd` shows the history, and executes its line 1, `sub`, again: the line of the handler itself is forgotten, and the line executed is the newest one. -/
example : (feed { sample with prog := fun fn _ => if fn = 9 then .call .history fun _ => .call (.again 1) fun _ => .call .history .ret else .ret none } 2 bs!"odd"
      { Sample.world with hist := { Sample.world.hist with buffer := [bs!"sub", bs!"add 1 2"] } }).toOption.map (fun r => (r.1.io.out, r.1.current, r.1.hist.buffer)) =
    some (bs!"\n0\tadd 1 2\n1\tsub\n2\todd\n\n\n0\tadd 1 2\n1\tsub\n\n", 3, [bs!"sub", bs!"add 1 2"]) := by decide +kernel

/-- **C107** A handler may feed the session a line and pass the exception on that leaves `Feed` (from the user's exception handler): it is then reported with the line of the handler. -/
theorem C107_feed (R : RApp σ τ) {line : Str} {toks : List Str} (hl : Lex.Line line toks) (ht : UserLine R.base.plat toks) (fuel : Nat)
    (w : World σ τ) {h : History.History} (hh : History.newCommand w.hist line = .ok h) {path : Path} (hp : w.tree.locate w.current = some path)
    (hc : CleanLine R.base.plat w.dis path toks) {c : Cmd} {args : List Str} {vals : List Value} (hx : Chosen R.base.plat w.dis path toks (.cmd c args))
    (ha : Accepts R.base.plat c args vals) (inner : Str) (hm : R.prog c.fn vals = .call (.feed inner) .ret)
    (w1 : World σ τ) (x : Option Exn) (hi : feed R fuel inner { w with hist := h } = .ok (w1, x)) (hb : ¬ c.Swallows x) :
    feed R (fuel + 1) line w = .ok (afterHandler R.base line x (w1.note (.ran c vals w.snap x))) := by
  have hr : run R (feed R fuel) c (R.prog c.fn vals) { w with hist := h } = .ok (w1, x) := by
    rw [hm]; simp only [run, method, hi]
  rw [C107_runs R hl ht fuel w hh hp hc hx ha (fun w' x' hx => by rw [hr] at hx; cases hx; exact hb), hr]

/-- The exception handler throws what it is told: two messages would appear, were they not both for the handler. -/
example : (feed { sample with rest := { Sample.app with onException := some fun s l e => ⟨s, [.out l, .out bs!";"], some e⟩ }
                              prog := fun fn _ => if fn = 9 then .call (.feed bs!"boom") .ret else .ret (some (.std bs!"no")) } 2 bs!"odd" Sample.world).map (fun r => (r.1.io.out, r.2)) =
    .ok (bs!"boom;odd;", some (.std bs!"no")) := by rfl

/-- **C107** After a handler has called `Current` with a menu that exists the session is in that menu: its prompt is shown, and the next line is read there. -/
theorem C107_goto (R : RApp σ τ) {line : Str} {toks : List Str} (hl : Lex.Line line toks) (ht : UserLine R.base.plat toks) (fuel : Nat)
    (w : World σ τ) {h : History.History} (hh : History.newCommand w.hist line = .ok h) {path : Path} (hp : w.tree.locate w.current = some path)
    (hc : CleanLine R.base.plat w.dis path toks) {c : Cmd} {args : List Str} {vals : List Value} (hx : Chosen R.base.plat w.dis path toks (.cmd c args))
    (ha : Accepts R.base.plat c args vals) (i : Id) (hm : R.prog c.fn vals = .call (.goto i) .ret) (hi : i ∈ w.tree.menuIds) :
    ∃ w', feed R (fuel + 1) line w = .ok (w', none) ∧ w'.current = i ∧ w'.tree = w.tree ∧ w'.tree.locate w'.current ≠ none := by
  refine ⟨({ w with hist := h, current := i } : World σ τ).note (.ran c vals w.snap none), ?_, rfl, rfl, Tree.locate_some hi⟩
  have hr : run R (feed R fuel) c (R.prog c.fn vals) { w with hist := h } = .ok ({ w with hist := h, current := i }, none) := by
    rw [hm]; rfl
  rw [C107_runs R hl ht fuel w hh hp hc hx ha (fun w' x' hx => by rw [hr] at hx; cases hx; rintro ⟨_, what, hw⟩; cases hw), hr]
  rfl

example : (feed { sample with prog := fun _ _ => .call (.goto 12) .ret } 1 bs!"odd" Sample.world).map (fun r => (r.1.current, (prompt r.1).map (fun w => w.io.out))) = .ok (12, .ok bs!"deep> ") := by rfl

/-- **C107** An exception leaves `Feed` only if the exception handler of the user throws it, however deep the programs call `Feed` in each other. -/
theorem C107_contained (R : RApp σ τ) (hn : ∀ f, R.rest.onException = some f → ∀ s l e, (f s l e).exn = none) (fuel : Nat) (line : Str) (w w' : World σ τ) (x : Option Exn)
    (h : feed R fuel line w = .ok (w', x)) : x = none := by
  cases fuel with
  | zero => cases h
  | succ fuel =>
    obtain ⟨toks, hl⟩ := line_exists line
    by_cases ht : toks = []
    · subst ht; rw [feed_blank R hl] at h; cases h; rfl
    · rw [feed_eq R hl ht] at h
      split at h
      · cases h
      · unfold catchAll at h
        split at h
        · cases h
        · cases h; rfl
        · simp only [Except.ok.injEq, reportException] at h
          split at h
          · rename_i f hf
            rw [Prod.mk.injEq] at h
            rw [← h.2]; exact hn f hf _ _ _
          · rw [Prod.mk.injEq] at h; exact h.2.symm
        · cases h; rfl

/-- In the root menu the second line fed throws: its message appears, and the third line is executed. -/
example : (feed { sample with prog := fun fn vals => if fn = 5 then .macro [bs!"add 1 2", bs!"add a b", bs!"sub"] else sample.prog fn vals } 2 bs!"any x" Sample.world).map (fun r => (seen r.1, r.2)) =
    .ok (([1], bs!"no\n", [bs!"sub", bs!"add a b", bs!"add 1 2", bs!"any x"], 3, false, []), none) := by rfl

/-! ### Which uses are safe -/

/-- **C107** (partial) Suppose that the user's code removes no menu (the menus belong to a set `K` of objects that are never removed), that programs go only to menus that exist from the beginning (`P`), that neither
    programs nor the other code throw `bad_cast`, and that a program, after it has removed something or called `Feed`, `Exit` or `ExecFromHistory`, uses its captures only if its command belongs to `K`. Then
    whatever lines are typed, no destroyed menu or command is used and no iterator is invalid; afterwards the current menu exists and the prompt can be shown.
    Missing: programs that remove menus or their own command, or throw `bad_cast` (refuted below). -/
theorem C107_safe_partial (R : RApp σ τ) (K P : Id → Prop) (hT : R.base.Tame) (hA : R.base.Only (KeepsMenus K))
    (hu : ∀ fn args, (R.prog fn args).Uses (KeepsMenus K) P) (hm : ∀ (c : Cmd) args, (R.prog c.fn args).Mild K c.id true) (fuel : Nat) (lines : List Str) :
    ∀ (w : World σ τ), Firm K P w →
    (∀ f, typed R fuel lines w = .error f → f ≠ .ub .dangling ∧ f ≠ .ub .iteratorInvalidation) ∧
    (∀ w', typed R fuel lines w = .ok w' → Firm K P w' ∧ ∃ w'', prompt w' = .ok w'') := by
  induction lines with
  | nil =>
    intro w hw
    refine ⟨fun f h => (by cases h), fun w' h => ?_⟩
    cases h
    refine ⟨hw, ?_⟩
    unfold prompt
    split
    · exact ⟨_, rfl⟩
    · cases hl : w.tree.locate w.current with
      | none => exact absurd hl (Tree.locate_some hw.current)
      | some p =>
        obtain ⟨m, k, q, rfl, _⟩ := Tree.locate_self hl
        exact ⟨_, rfl⟩
  | cons l ls ih =>
    intro w hw
    have G := feed_good hT hA hu hm fuel
    simp only [typed]
    cases hf : feed R fuel l w with
    | error f =>
      refine ⟨fun f' h => ?_, fun w' h => by cases h⟩
      cases h
      rcases G.fault l w f hw hf with rfl | ⟨p, ty, s, u, hu, rfl⟩ | rfl | rfl
      · simp
      · rcases C07_conversion_ub_partial p ty s u hu with ⟨rfl, _⟩ | ⟨rfl, _⟩ <;> simp
      · simp
      · simp
    | ok v => exact ih v.1 (G.stays l w v.1 v.2 hf hw).1

/-- `odd` uses its captures before it removes itself. -/
example : (∀ fn args, (sample.prog fn args).Uses (KeepsMenus fun i => i = 0 ∨ i = 3 ∨ i = 12) fun _ => False) ∧
    (∀ (c : Cmd) args, (sample.prog c.fn args).Mild (fun i => i = 0 ∨ i = 3 ∨ i = 12) c.id true) ∧ Firm (fun i => i = 0 ∨ i = 3 ∨ i = 12) (fun _ => False) Sample.world ∧
    (typed sample 2 [bs!"odd", bs!"sub", bs!"go", bs!"odd"] Sample.world).map seen =
      .ok ([], bs!"wrong command: add 1 2\nwrong command: add a b\nwrong command: odd\n",
        [bs!"odd", bs!"deep", bs!"add a b", bs!"add 1 2", bs!"go", bs!"sub", bs!"odd"], 12, false, []) := by
  refine ⟨?_, ?_, ⟨by simp [Sample.world, Sample.tree, Sample.kids, Sample.subKids, Sample.deepKids, Tree.menuIds, Forest.menuIds, Sample.root, Sample.sub, Sample.deep, Sample.info], fun i h => h.elim, by decide⟩, ?_⟩
  · intro fn args
    simp only [sample]
    repeat' split
    all_goals simp [Prog.Uses, Prog.macro, KeepsMenus]
  · intro c args
    simp only [sample]
    repeat' split
    all_goals simp [Prog.Mild, Prog.macro, removes, Method.inert]
    exact fun x h _ _ => h
  · rfl

/-! ### Refutations -/

/-- The sample application with another function of `odd`. -/
def withOdd (q : Prog (List Nat)) : RApp (List Nat) (List Str) := { sample with prog := fun fn vals => if fn = 9 then q else sample.prog fn vals }

/-- What happens when `odd` is typed, in a state in which nothing is wrong. -/
def oddFault (q : Prog (List Nat)) (fuel : Nat) : Option Fault :=
  match feed (withOdd q) fuel bs!"odd" Sample.world with
  | .error f => some f
  | .ok _ => none

/-- **C107** (refutation) A handler that removes its own command and then uses its captures reads a destroyed object; so does one that feeds the session a line that does it. If it uses them before, all is well. -/
theorem C107_refuted_own :
    oddFault (.act (.remove 9) (.touch (.ret none))) 1 = some (.ub .dangling) ∧
    oddFault (.touch (.act (.remove 9) (.ret none))) 1 = none ∧
    feed { sample with prog := fun fn _ => if fn = 9 then .act (.remove 5) (.ret none) else .call (.feed bs!"odd") fun _ => .touch (.ret none) } 2 bs!"any 1" Sample.world =
      .error (.ub .dangling) := by
  refine ⟨rfl, rfl, rfl⟩

/-- **C107** (refutation) A handler that goes to a menu, removes it, and shows the prompt, or the help, or feeds a line, uses a destroyed menu. -/
theorem C107_refuted_menu :
    ∀ m ∈ [Method.prompt, .help, .feed bs!"go"], oddFault (.call (.goto 3) fun _ => .act (.remove 3) (.call m fun _ => .ret none)) 2 = some (.ub .dangling) := by
  intro m hm
  simp only [List.mem_cons, List.not_mem_nil, or_false] at hm
  rcases hm with rfl | rfl | rfl <;> rfl

/-- **C107** (refutation) A handler that feeds a line by which a command is removed, and then throws `bad_cast`, leaves the search with invalid iterators. -/
theorem C107_refuted_cast :
    feed { sample with prog := fun fn _ => if fn = 9 then .act (.remove 5) (.ret none) else .call (.feed bs!"odd") fun _ => .ret (some (.badCast bs!"cast")) } 2 bs!"cast" Sample.world =
      .error (.ub .iteratorInvalidation) := by
  rfl

/-- **C107** (refutation) A handler that feeds the session the line that has called it never ends: however deep the stack, it overflows. -/
theorem C107_refuted_endless (R : RApp σ τ) {line : Str} {toks : List Str} (hl : Lex.Line line toks) (ht : UserLine R.base.plat toks) {c : Cmd} {args : List Str} {vals : List Value}
    (ha : Accepts R.base.plat c args vals) (k : Option Exn → Prog σ) (hm : R.prog c.fn vals = .call (.feed line) k) (fuel : Nat) :
    ∀ (w : World σ τ) {path : Path}, History.WF w.hist → w.tree.locate w.current = some path → CleanLine R.base.plat w.dis path toks → Chosen R.base.plat w.dis path toks (.cmd c args) →
    feed R fuel line w = .error .stackOverflow := by
  induction fuel with
  | zero => intro w path _ _ _ _; rfl
  | succ fuel ih =>
    intro w path hw hp hc hx
    obtain ⟨h, hh, hwf, _⟩ := History.newCommand_ok hw line
    have hr : run R (feed R fuel) c (R.prog c.fn vals) { w with hist := h } = .error .stackOverflow := by
      rw [hm]
      simp only [run, method]
      rw [ih { w with hist := h } hwf hp hc hx]
    rw [C107_runs R hl ht fuel w hh hp hc hx ha (fun w' x hx => by rw [hr] at hx; cases hx), hr]

example : ∀ fuel < 5, oddFault (.call (.feed bs!"odd") fun _ => .ret none) fuel = some .stackOverflow := by decide +kernel

end Verif.Reentrant
