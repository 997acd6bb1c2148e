import Verif.Props.Telnet
import Verif.Props.Processor
import Verif.Props.AfterExit

/-!
# C64, C68, C69: exactly when
-/

set_option linter.unusedSimpArgs false

namespace Verif.Props
open Spec
open Verif.Terminal (Key Symbol)

/-! ### C69 -/

section
open Spec.Telnet Verif.Telnet

/-- **C69** (part) Exactly when the exchange ends: between two such endpoints, a command about an option leads to a finite exchange, of at most two messages, unless it is `DO 1`, `DO 3` or `WILL 3`. Missing: these three,
which are answered for ever. -/
theorem C69_exact_partial (v : Verb) (x : Byte) :
    ((∃ n, bounce n (Item.option v x).wire = .ok []) ↔ ¬ ((v = .do ∧ (x = 1 ∨ x = 3)) ∨ (v = .will ∧ x = 3))) ∧
    (bounce 3 (Item.option v x).wire = .ok [] ∨ ∀ n, ∃ m, bounce (n + 1) (Item.option v x).wire = .ok m ∧ m ≠ []) := by
  have loop : ∀ w : Str, w ≠ [] → endpoint w = .ok w → ∀ n, bounce n w = .ok w := by
    intro w _ h n
    induction n with
    | zero => rfl
    | succ n ih => rw [bounce, ih]; exact h
  have first : ∀ (w w' : Str), endpoint w = .ok w' → ∀ n, bounce (n + 1) w = bounce n w' := by
    intro w w' h n
    induction n with
    | zero => exact h
    | succ n ih => rw [bounce, ih, bounce]
  have never : ∀ w : Str, w ≠ [] → (∃ w', w' ≠ [] ∧ endpoint w = .ok w' ∧ endpoint w' = .ok w') → (¬ ∃ n, bounce n w = .ok []) ∧ ∀ n, ∃ m, bounce (n + 1) w = .ok m ∧ m ≠ [] := by
    intro w hw ⟨w', h1, h2, h3⟩
    have hn : ∀ n, bounce (n + 1) w = .ok w' := fun n => (first w w' h2 n).trans (loop w' h1 h3 n)
    refine ⟨?_, fun n => ⟨w', hn n, h1⟩⟩
    rintro ⟨n, h⟩
    cases n with
    | zero => exact hw (Except.ok.inj h)
    | succ n => rw [hn n] at h; exact h1 (Except.ok.inj h)
  by_cases h1 : x = 1
  · subst h1
    cases v with
    | will => exact ⟨⟨fun _ => by simp, fun _ => ⟨3, rfl⟩⟩, .inl rfl⟩
    | wont => exact ⟨⟨fun _ => by simp, fun _ => ⟨3, rfl⟩⟩, .inl rfl⟩
    | dont => exact ⟨⟨fun _ => by simp, fun _ => ⟨3, rfl⟩⟩, .inl rfl⟩
    | «do» =>
      obtain ⟨a, b⟩ := never (Item.option .do 1).wire (by simp [Item.wire]) ⟨(Item.option .do 1).wire, by simp [Item.wire], rfl, rfl⟩
      exact ⟨⟨fun h => absurd h a, fun h => absurd (.inl ⟨rfl, .inl rfl⟩) h⟩, .inr b⟩
  · by_cases h3 : x = 3
    · subst h3
      cases v with
      | will =>
        obtain ⟨a, b⟩ := never (Item.option .will 3).wire (by simp [Item.wire]) ⟨(Item.option .will 3).wire, by simp [Item.wire], rfl, rfl⟩
        exact ⟨⟨fun h => absurd h a, fun h => absurd (.inr ⟨rfl, rfl⟩) h⟩, .inr b⟩
      | wont => exact ⟨⟨fun _ => by simp, fun _ => ⟨3, rfl⟩⟩, .inl rfl⟩
      | dont => exact ⟨⟨fun _ => by simp, fun _ => ⟨3, rfl⟩⟩, .inl rfl⟩
      | «do» =>
        obtain ⟨a, b⟩ := never (Item.option .do 3).wire (by simp [Item.wire]) ⟨(Item.option .will 3).wire, by simp [Item.wire], rfl, rfl⟩
        exact ⟨⟨fun h => absurd h a, fun h => absurd (.inl ⟨rfl, .inr rfl⟩) h⟩, .inr b⟩
    · have h := C69_requests_end_partial v x h1 h3
      exact ⟨⟨fun _ => by simp [h1, h3], fun _ => ⟨3, h⟩⟩, .inl h⟩

example : bounce 3 (Item.option .will 1).wire = .ok [] ∧ bounce 1 (Item.option .will 1).wire = .ok (Item.option .dont 1).wire ∧ bounce 7 (Item.option .do 3).wire = .ok (Item.option .will 3).wire := ⟨rfl, rfl, rfl⟩

end

variable {σ τ : Type} (A : App σ τ)

/-! ### C64 -/

section
open Processor

/-- Only Enter ends a line. -/
theorem command_ret {t : Verif.Terminal.Term} {io : Io} {k : Key} {t' : Verif.Terminal.Term} {io' : Io} {s : Str} (h : Verif.Terminal.keypressed t io k = .ok (t', io', .command s)) : k = .ret := by
  unfold Verif.Terminal.keypressed at h
  cases k
  case ret => rfl
  all_goals
    exfalso
    simp only [bind, Except.bind] at h
    revert h
    repeat' split
    all_goals (intro h; simp only [reduceCtorEq, Except.ok.injEq, Prod.mk.injEq, and_false] at h)

/-- **C64** (part) Exactly when the session becomes deaf: an exception leaves the handling of the line that Enter has ended. An exception for another reason (an exit action, at the end of the input) does not have this effect.
Missing: that there be no such exception. -/
theorem C64_exact_partial (fuel : Nat) (p p' : Proc σ τ) (k : Key) (x : Option Exn) (h : keypressed A fuel p k = .ok (p', x)) (ha : p.active = true) :
    p'.active = false ↔ k = .ret ∧ x ≠ none := by
  cases x with
  | none => rw [C64_accepts_input_partial A fuel p p' k h ha]; simp
  | some e =>
    unfold keypressed at h
    simp only [bind, Except.bind] at h
    split at h
    · cases h
    · rename_i r hr
      obtain ⟨t, io, s⟩ := r
      cases s with
      | command s =>
        have hk := command_ret hr
        simp only [newCommand, bind, Except.bind] at h
        split at h
        · cases h
        · split at h
          · cases h; simp [hk]
          · split at h <;> cases h
      | eof =>
        have hk : k ≠ .ret := by
          intro hk
          subst hk
          cases hr
        simp only [newCommand, bind, Except.bind] at h
        split at h
        · cases h
        · simp only [Except.ok.injEq, Prod.mk.injEq] at h
          obtain ⟨rfl, _⟩ := h
          simp [ha, hk]
      | nothing => simp only [newCommand] at h; cases h
      | down => simp only [newCommand, bind, Except.bind] at h; split at h <;> cases h
      | up => simp only [newCommand, bind, Except.bind] at h; split at h <;> cases h
      | tab => simp only [newCommand, bind, Except.bind] at h; split at h <;> cases h
      | clear => simp only [newCommand, bind, Except.bind] at h; split at h <;> cases h

/-- An exit action that throws, at the end of the input: the exception leaves the key press, and input is still accepted. -/
example : (keypressed { Sample.app with exitGlobal := some fun s => ⟨s, [], some (.std bs!"no")⟩ } 5 (Sample.proc Sample.world []) .eof).map (fun r => (r.1.active, r.2)) = .ok (true, some (.std bs!"no")) := by rfl

example : (keypressed Sample.strict 5 (Sample.proc Sample.world bs!"boom") .ret).map (fun r => (r.1.active, r.2)) = .ok (false, some (.std bs!"again")) := by rfl

end

/-! ### C68 -/

section
open Verif.Telnet

/-- **C68** (part) If the client, which is connected, enters `exit` before it leaves, both exit actions run and the history, with the line itself, is saved, and the connection is closed. Missing: clients that just leave (`C68_disconnect_refuted`). -/
theorem C68_exit_partial (fuel : Nat) (line : Str) (hl : Lex.Line line [bs!"exit"]) (f : σ → Effect σ) (w : World (σ × Bool) τ) (hc : w.app.2 = true) (hw : History.WF w.hist) (hf : (f w.app.1).exn = none)
    (hg : ∀ g s, A.exitGlobal = some g → (g s).exn = none) (hs : ∀ cmds, A.storeFails w.storage cmds = none) :
    ∃ w' h cmds, feed (telnetApp A (some f) true) (fuel + 1) line w = .ok (w', none) ∧ History.newCommand w.hist line = .ok h ∧ History.getCommands h = .ok cmds ∧
      w'.storage = A.store w.storage cmds ∧ w'.app = ((match A.exitGlobal with | none => (f w.app.1).app | some g => (g (f w.app.1).app).app), false) ∧ w'.exit = true := by
  have he : exitAction (some f) true w.app = ⟨((f w.app.1).app, false), (f w.app.1).acts, none⟩ := by simp [exitAction, hf, hc]
  have hx : (does (telnetApp (τ := τ) A (some f) true).exitGlobal (exitAction (some f) true w.app).app).exn = none := by
    rw [he]
    rcases hh : A.exitGlobal with _ | g
    · simp [telnetApp, hh, does]
    · simp [telnetApp, hh, does, lift, hg g _ hh]
  obtain ⟨w', h, cmds, h1, h2, h3, h4, _, _, h6, h7⟩ := C57_exit_line (telnetApp A (some f) true) fuel line hl (exitAction (some f) true) rfl w hw (by rw [he]) hx hs
  refine ⟨w', h, cmds, h1, h2, h3, h6, ?_, h7⟩
  rw [h4, he]
  rcases hh : A.exitGlobal with _ | g <;> simp [telnetApp, hh, does, lift]

/-- With an exit action of the `Cli` as well. -/
example : (feed (telnetApp { Sample.app with exitGlobal := some fun s => ⟨98 :: s, [], none⟩ } (some (fun s => ⟨99 :: s, [.out bs!"bye\n"], none⟩)) true) 5 bs!"exit" (online Sample.world)).map
    (fun r => (r.1.app, r.1.exit, r.1.storage, r.1.io.out)) = .ok (([98, 99], false), true, [bs!"exit"], bs!"bye\n") := by rfl

end
end Verif.Props
