import Verif.Proofs.Regardless
import Verif.Props.AfterExit

set_option linter.unusedSimpArgs false

/-!
# Property C74, refuted in general: after `exit` a session does what it would do without
-/

namespace Verif.Props
open Spec
open Processor (Proc keypressed)

variable {σ τ : Type}

/-- **C74** (refuted, in general) For every application, every state and every line: a session that has been left does with the line exactly what it would do if it had not been left. The flag has no influence on what is executed, called, written or stored. -/
theorem C74_regardless_refuted (A : App σ τ) (fuel : Nat) (line : Str) (w : World σ τ) :
    feed A fuel line { w with exit := true } = match feed A fuel line w with | .ok (w', x) => .ok ({ w' with exit := true }, x) | .error f => .error f := by
  have h := Regardless.alike_feed (A := A) (b := true) fuel line (w := w) (v := { w with exit := true }) (by simp [Regardless.Beside])
  revert h
  generalize feed A fuel line w = r
  generalize feed A fuel line { w with exit := true } = r'
  intro h
  cases h with
  | error f => rfl
  | ok o h =>
    have h' := h
    simp only [Regardless.Beside, Bool.or_true] at h'
    rw [h']

/-- **C74** (refuted, in general) In particular, after the line `exit` has done all that it should (exit actions, saving of the history), a line that designates a command calls the handler of this command. -/
theorem C74_runs_refuted (A : App σ τ) (fuel : Nat) (w : World σ τ) (cmds : List Str) (_hx : w.exit = true) (hs : .saved cmds ∈ w.log) (line : Str) (toks : List Str) (path : Path) (hr : Ready A w line toks path)
    (c : Cmd) (args : List Str) (vals : List FromString.Value) (hc : Chosen A.plat w.dis path toks (.cmd c args)) (ha : Accepts A.plat c args vals) (hb : ¬ c.Swallows (A.handler c.fn w.app vals).exn) :
    ∃ w' x, feed A (fuel + 1) line w = .ok (w', x) ∧ ¬ SavedLast w'.log ∧ ∃ a b, w'.log = a ++ .saved cmds :: b ∧ .ran c vals w.snap (A.handler c.fn w.app vals).exn ∈ b := by
  obtain ⟨w', x, e1, e2⟩ := C11_first_match_wins_partial A fuel w line toks path hr c args vals hc ha hb
  obtain ⟨a, b, e⟩ := List.append_of_mem hs
  refine ⟨w', x, e1, ?_, a, _, by rw [e2, e, List.append_assoc, List.cons_append], by simp⟩
  intro h
  have := h a cmds (b ++ .ran c vals w.snap (A.handler c.fn w.app vals).exn :: reportOf line (A.handler c.fn w.app vals).exn) (by rw [e2, e, List.append_assoc, List.cons_append])
  simp at this

/-- **C74** (refuted, in general) When Enter is pressed in a session that has been left: the line is executed as it would be otherwise, and only the prompt is missing. -/
theorem C74_enter_refuted (A : App σ τ) (fuel : Nat) (p q : Proc σ τ) (x : Option Exn) (h : keypressed A fuel { p with w := { p.w with exit := false } } .ret = .ok (q, x)) :
    ∃ q', keypressed A fuel { p with w := { p.w with exit := true } } .ret = .ok (q', x) ∧ q'.w.app = q.w.app ∧ q'.w.log = q.w.log ∧ q'.w.tree = q.w.tree ∧ q'.w.dis = q.w.dis ∧ q'.w.storage = q.w.storage ∧
      q'.w.hist = q.w.hist ∧ q'.w.current = q.w.current ∧ ∃ s, q.w.io.out = q'.w.io.out ++ s ∧ (x = none → q.w.exit = false → bs!"> " <:+ s) := by
  have key : ∀ b, keypressed A fuel { p with w := { p.w with exit := b } } .ret = (match feed A fuel p.term.line { p.w.put bs!"\r\n" with exit := b } with
      | .error f => .error f
      | .ok (w, some e) => .ok (⟨w, ⟨[], 0⟩, false⟩, some e)
      | .ok (w, none) => match prompt w with | .error f => .error f | .ok w => .ok (⟨w, ⟨[], 0⟩, true⟩, none)) := by
    intro b
    simp only [keypressed, Terminal.keypressed, bind, Except.bind, Processor.newCommand, World.put]
    cases feed A fuel p.term.line { p.w with io := p.w.io.put bs!"\r\n", exit := b } with
    | error f => rfl
    | ok r =>
      obtain ⟨w, x⟩ := r
      cases x with
      | some e => rfl
      | none =>
        simp only
        cases prompt w <;> rfl
  rw [key] at h ⊢
  have e := C74_regardless_refuted A fuel p.term.line { p.w.put bs!"\r\n" with exit := false }
  simp only at e
  rw [e]
  revert h
  cases feed A fuel p.term.line { p.w.put bs!"\r\n" with exit := false } with
  | error f => intro h; cases h
  | ok r =>
    obtain ⟨w', x'⟩ := r
    cases x' with
    | some e =>
      intro h
      cases h
      exact ⟨_, rfl, rfl, rfl, rfl, rfl, rfl, rfl, rfl, [], by simp, by simp⟩
    | none =>
      simp only
      intro h
      have hp : prompt { w' with exit := true } = .ok { w' with exit := true } := rfl
      rw [hp]
      cases hw : prompt w' with
      | error f => rw [hw] at h; cases h
      | ok w'' =>
        rw [hw] at h
        cases h
        obtain ⟨io, rfl, s, ho, hs⟩ : ∃ io, w'' = { w' with io := io } ∧ ∃ s, io.out = w'.io.out ++ s ∧ (w'.exit = false → bs!"> " <:+ s) := by
          unfold prompt at hw
          split at hw
          · rename_i hx
            cases hw
            exact ⟨w'.io, rfl, [], by simp, fun h => by rw [h] at hx; cases hx⟩
          · split at hw
            · rename_i m _ _ _
              cases hw
              refine ⟨_, rfl, ?_⟩
              have : ∀ io : Io, io.out <+: (io.beforePrompt.put m.prompt).afterPrompt.out := by
                intro io
                simp only [Io.beforePrompt, Io.afterPrompt, Io.put, Io.sgr, Io.force]
                repeat' split
                all_goals simp [List.append_assoc]
              obtain ⟨s, hs⟩ := this w'.io
              exact ⟨s ++ bs!"> ", by rw [← List.append_assoc, hs]; rfl, fun _ => List.suffix_append _ _⟩
            · cases hw
        exact ⟨_, rfl, rfl, rfl, rfl, rfl, rfl, rfl, rfl, s, ho, fun _ h => hs h⟩

/-- A concrete case: `any` after `exit`; the second command has been executed, and there is no prompt. -/
example : (match feed actions 3 bs!"exit" Sample.world with
    | .ok (w, none) => (feed actions 3 bs!"any 1" w).toOption.map (fun r => (w.exit, r.1.exit, runsAfter r.1.log))
    | _ => none) = some (true, true, [5]) := by decide +kernel

/-- The hypotheses of `C74_runs_refuted` are met: the history has been saved, and the line is `add 1 x`. -/
example : ∃ w' x, feed Sample.app 1 bs!"add 1 x" { Sample.world with exit := true, log := [.saved []] } = .ok (w', x) ∧ ¬ SavedLast w'.log ∧ ∃ a b, w'.log = a ++ .saved [] :: b ∧ .ran Sample.addStr [.str bs!"1", .str bs!"x"] Sample.world.snap none ∈ b := by
  have hr := sample_ready Sample.world.dis bs!"add 1 x" [bs!"add", bs!"1", bs!"x"] rfl (by simp) (by decide) (by decide +kernel)
  exact C74_runs_refuted Sample.app 0 { Sample.world with exit := true, log := [.saved []] } [] rfl (by simp) bs!"add 1 x" [bs!"add", bs!"1", bs!"x"] _ ⟨hr.hist, hr.tokens, hr.user, hr.here, hr.clean⟩
    Sample.addStr [bs!"1", bs!"x"] _ (chosen_of (by decide +kernel)) (.cons rfl (.cons rfl .nil)) (by rintro ⟨_, _, h⟩; cases h)

end Verif.Props
