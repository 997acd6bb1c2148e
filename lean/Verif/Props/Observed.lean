import Verif.Props.Life

set_option linter.unusedSimpArgs false

/-!
# C11, C12, C18, C19: what a line does to the application and what it shows

The theorems in `Props/Dispatch` say which calls are made; these say what state and what output they leave.
-/

namespace Verif.Props
open Spec
open FromString (Value)

variable {σ τ : Type} (A : App σ τ)

/-- How an exception of a handler is reported: by the exception handler, or by a message if there is none or it is no `std::exception`. -/
def report (line : Str) (x : Option Exn) (s : σ) : Effect σ :=
  match x with
  | none => ⟨s, [], none⟩
  | some .other => ⟨s, [.out (bs!"Cli. Unknown exception caught handling command line \"" ++ line ++ bs!"\"\n")], none⟩
  | some (.std what) =>
    match A.onException with
    | some f => f s line (.std what)
    | none => ⟨s, [.out (what ++ bs!"\n")], none⟩
  | some (.badCast what) =>
    match A.onException with
    | some f => f s line (.badCast what)
    | none => ⟨s, [.out (what ++ bs!"\n")], none⟩

theorem report_result (line : Str) (x : Option Exn) (w : World σ τ) :
    (afterHandler A line x w).2 = (report A line x w.app).exn ∧ (afterHandler A line x w).1.app = (report A line x w.app).app ∧
    (afterHandler A line x w).1.io.out = w.io.out ++ written (report A line x w.app).acts ∧ SameSession w (afterHandler A line x w).1 := by
  have hr : ∀ (f : σ → Str → Exn → Effect σ) (e : Exn), ((w.note (.reported line e)).effect (f w.app line e)).app = (f w.app line e).app ∧
      ((w.note (.reported line e)).effect (f w.app line e)).io.out = w.io.out ++ written (f w.app line e).acts ∧ SameSession w ((w.note (.reported line e)).effect (f w.app line e)) := by
    intro f e
    obtain ⟨h1, h2, _, h4⟩ := effect_result (w.note (.reported line e)) (f w.app line e)
    exact ⟨h1, h2, ⟨h4.hist, h4.current, h4.exit, h4.storage⟩⟩
  cases x with
  | none => exact ⟨rfl, rfl, by simp [afterHandler, catchAll, report, written], .refl _⟩
  | some e =>
    cases e with
    | other => exact ⟨rfl, rfl, by simp [afterHandler_other, World.put, World.note, Io.put, report, written], ⟨rfl, rfl, rfl, rfl⟩⟩
    | std what =>
      rw [afterHandler_std A line _ (by simp)]
      unfold reportException report
      cases A.onException with
      | some f => exact ⟨rfl, hr f _⟩
      | none => exact ⟨rfl, rfl, by simp [World.put, World.note, Io.put, written, Exn.what], ⟨rfl, rfl, rfl, rfl⟩⟩
    | badCast what =>
      rw [afterHandler_std A line _ (by simp)]
      unfold reportException report
      cases A.onException with
      | some f => exact ⟨rfl, hr f _⟩
      | none => exact ⟨rfl, rfl, by simp [World.put, World.note, Io.put, written, Exn.what], ⟨rfl, rfl, rfl, rfl⟩⟩

/-- **C11**, **C18**, **C19** What the handler of the chosen command leaves: its effect, and then that of the report of its exception, if it throws one; nothing else is done to the application, shown to the user or stored. -/
theorem C11_effect (fuel : Nat) (w : World σ τ) (line : Str) (toks : List Str) (path : Path) (hr : Ready A w line toks path)
    (c : Cmd) (args : List Str) (vals : List Value) (hc : Chosen A.plat w.dis path toks (.cmd c args)) (ha : Accepts A.plat c args vals)
    (hb : ¬ c.Swallows (A.handler c.fn w.app vals).exn) :
    let e := A.handler c.fn w.app vals
    let r := report A line e.exn e.app
    ∃ w', feed A (fuel + 1) line w = .ok (w', r.exn) ∧ w'.app = r.app ∧ w'.io.out = w.io.out ++ written e.acts ++ written r.acts ∧ w'.current = w.current ∧ w'.exit = w.exit ∧ w'.storage = w.storage := by
  intro e r
  obtain ⟨h, hh, _⟩ := History.newCommand_ok hr.hist line
  rcases feed_cases A hr.tokens hr.user fuel w hh hr.here hr.clean with ⟨h1, _⟩ | ⟨m, k, q, h1, _⟩ | ⟨c', args', vals', h1, h2, h3⟩
  · exfalso
    obtain ⟨he, cs, hd, _⟩ := hc
    exact h1 c args vals ((designatesCmd_iff _ _ _ _ _).2 ⟨cs, (mem_cands _ _ _ _).2 ⟨he, hd⟩⟩) ha
  · cases chosen_unique hc h1
  · cases chosen_unique hc h1
    cases accepts_unique ha h2
    obtain ⟨e1, e2, _, e4⟩ := effect_result (w.entered h) e
    obtain ⟨r1, r2, r3, r4⟩ := report_result A line e.exn (((w.entered h).effect e).note (.ran c vals w.snap e.exn))
    have hfeed := h3 hb
    have ha1 : (((w.entered h).effect e).note (.ran c vals w.snap e.exn)).app = e.app := e1
    have ha2 : (((w.entered h).effect e).note (.ran c vals w.snap e.exn)).io.out = w.io.out ++ written e.acts := e2
    replace r4 := And.intro (r4.current.trans e4.current) (And.intro (r4.exit.trans e4.exit) (r4.storage.trans e4.storage))
    revert r1 r2 r3 r4 hfeed
    show _ → _ → _ → feed A (fuel + 1) line w = .ok (afterHandler A line e.exn (((w.entered h).effect e).note (.ran c vals w.snap e.exn))) → _ → _
    rw [ha1, ha2]
    generalize afterHandler A line e.exn (((w.entered h).effect e).note (.ran c vals w.snap e.exn)) = v
    intro r1 r2 r3 hfeed r4
    exact ⟨v.1, by rw [hfeed, ← r1], r2, r3, r4⟩

example : (feed Sample.app 1 bs!"add 1 x" Sample.world).map (fun r => (r.1.app, r.1.io.out)) = .ok ([2], bs!"ok\n") := by rfl
example : (feed Sample.app 1 bs!"odd" Sample.world).map (fun r => (r.1.app, r.1.io.out)) = .ok ([9], bs!"ok\nCli. Unknown exception caught handling command line \"odd\"\n") := by rfl

/-- How a wrong command is reported. -/
def complain (line : Str) (s : σ) : Effect σ :=
  match A.onWrong with
  | some f => f s line
  | none => ⟨s, [.out (bs!"wrong command: " ++ line ++ bs!"\n")], none⟩

/-- **C12** What a line leaves that designates nothing: the effect of the wrong-command handler, or the message with the line; and the report of the exception that the wrong-command handler throws, if it does. -/
theorem C12_effect (fuel : Nat) (w : World σ τ) (line : Str) (toks : List Str) (path : Path) (hr : Ready A w line toks path)
    (hcmd : ∀ c args vals, DesignatesCmd w.dis path toks c args → ¬ Accepts A.plat c args vals) (hmenu : ∀ q, ¬ DesignatesMenu w.dis path toks q) :
    let e := complain A line w.app
    let r := report A line e.exn e.app
    ∃ w', feed A (fuel + 1) line w = .ok (w', r.exn) ∧ w'.app = r.app ∧ w'.io.out = w.io.out ++ written e.acts ++ written r.acts ∧ w'.current = w.current ∧ w'.exit = w.exit ∧ w'.storage = w.storage := by
  intro e r
  obtain ⟨h, hh, _⟩ := History.newCommand_ok hr.hist line
  rcases feed_cases A hr.tokens hr.user fuel w hh hr.here hr.clean with ⟨_, _, h3⟩ | ⟨m, k, q, ⟨he, cs, hdes, _⟩, h2⟩ | ⟨c, args, vals, ⟨he, cs, hdes, _⟩, h2, h3⟩
  · have hw : (wrongCommand A line (w.entered h)).2 = e.exn ∧ (wrongCommand A line (w.entered h)).1.app = e.app ∧
        (wrongCommand A line (w.entered h)).1.io.out = w.io.out ++ written e.acts ∧ SameSession (w.entered h) (wrongCommand A line (w.entered h)).1 := by
      have hcase : A.onWrong = none ∨ ∃ f, A.onWrong = some f := by cases A.onWrong <;> simp
      rcases hcase with hn | ⟨f, hf⟩
      · have he : e = ⟨w.app, [.out (bs!"wrong command: " ++ line ++ bs!"\n")], none⟩ := by simp only [e, complain, hn]
        rw [he]
        simp only [wrongCommand, hn]
        exact ⟨trivial, rfl, by simp [World.put, World.note, World.entered, Io.put, written], ⟨rfl, rfl, rfl, rfl⟩⟩
      · have he : e = f w.app line := by simp only [e, complain, hf]
        rw [he]
        simp only [wrongCommand, hf]
        obtain ⟨a1, a2, _, a4⟩ := effect_result ((w.entered h).note (.wrong line)) (f w.app line)
        exact ⟨rfl, a1, a2, ⟨a4.hist, a4.current, a4.exit, a4.storage⟩⟩
    obtain ⟨w1, w2, w3, w4⟩ := hw
    obtain ⟨r1, r2, r3, r4⟩ := report_result A line (wrongCommand A line (w.entered h)).2 (wrongCommand A line (w.entered h)).1
    replace r4 := And.intro (r4.current.trans w4.current) (And.intro (r4.exit.trans w4.exit) (r4.storage.trans w4.storage))
    revert r1 r2 r3 r4 h3
    rw [w2, w3]
    generalize hv : afterHandler A line (wrongCommand A line (w.entered h)).2 (wrongCommand A line (w.entered h)).1 = v
    rw [w1]
    intro h3 r1 r2 r3 r4
    exact ⟨v.1, by rw [h3, ← r1], r2, r3, r4⟩
  · exact absurd ((designatesMenu_iff _ _ _ _).2 ⟨cs, (mem_cands _ _ _ _).2 ⟨he, hdes⟩⟩) (hmenu _)
  · exact absurd h2 (hcmd _ _ _ ((designatesCmd_iff _ _ _ _ _).2 ⟨cs, (mem_cands _ _ _ _).2 ⟨he, hdes⟩⟩))

example : (feed Sample.app 1 bs!" add  1" Sample.world).map (fun r => (r.1.app, r.1.io.out)) = .ok ([], bs!"wrong command:  add  1\n") := by rfl

/-- **C16** The line `history` writes the listing of the history, in which it is itself the latest entry (C23), and does nothing else. -/
theorem C16_history (fuel : Nat) (line : Str) (w : World σ τ) (hw : History.WF w.hist) (hl : Lex.Line line [bs!"history"]) :
    ∃ h, History.newCommand w.hist line = .ok h ∧
      feed A (fuel + 1) line w = .ok ({ w with hist := h, io := w.io.put (HistoryList.render (History.listing h)), log := w.log ++ [.builtin .history] }, none) := by
  obtain ⟨h, hh, _⟩ := History.newCommand_ok hw line
  refine ⟨h, hh, ?_⟩
  rw [feed_eq A hl (by simp), hh]
  simp only
  unfold body
  rcases scanGlobal_cases A (feed A fuel) [bs!"history"] (by simp) (w.entered h) with ⟨hn, _⟩ | ⟨_, _, hc⟩ | ⟨he, _⟩ | ⟨he, _⟩ | ⟨_, hg⟩ | ⟨arg, n, he, _⟩
  · exact absurd .history (hn .history)
  · obtain ⟨a, ha⟩ := hc
    simp at ha
  · simp at he
  · simp at he
  · rw [hg]; rfl
  · simp at he

example : (feed Sample.app 1 bs!" history" Sample.world).map (fun r => (History.listing r.1.hist, r.1.log)) = .ok ([(0, bs!" history")], [.builtin .history]) := by rfl

end Verif.Props
