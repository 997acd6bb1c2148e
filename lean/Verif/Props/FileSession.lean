import Verif.Model.FileSession
import Verif.Spec.Lines
import Verif.Proofs.FeedExit
import Verif.Props.Life
import Verif.Props.Sample
import Verif.Proofs.Bang

set_option linter.unusedSimpArgs false

/-!
# Properties C55 and C56: sessions that read a stream
-/

namespace Verif.Props
open Spec FileSession
open FromString (Value)

variable {σ τ : Type}

/-! ### The exit sequence -/

def isEnd : Event → Bool
  | .exitSession | .exitGlobal | .saved _ => true
  | _ => false

/-- The events of the exit sequence. -/
def ends (evs : List Event) : List Event := evs.filter isEnd

theorem ends_append (a b : List Event) : ends (a ++ b) = ends a ++ ends b := List.filter_append ..

/-- Nothing of the exit sequence has happened in between. -/
def Stays (w w' : World (σ × Bool) τ) : Prop := ends w'.log = ends w.log ∧ w'.app.2 = w.app.2

theorem stays_effect (w : World (σ × Bool) τ) (e : Effect σ) (b : Bool) (h : w.app.2 = b) : Stays w (w.effect (lift b e)) := by
  obtain ⟨h1, _, h3, _⟩ := effect_result w (lift b e)
  exact ⟨by rw [h3], by rw [h1, h]; rfl⟩

theorem stays_note (w : World (σ × Bool) τ) (e : Event) (h : isEnd e = false) : Stays w (w.note e) :=
  ⟨by simp [World.note, ends_append, ends, h], rfl⟩

theorem stays_trans {a b c : World (σ × Bool) τ} (h1 : Stays a b) (h2 : Stays b c) : Stays a c := ⟨h2.1.trans h1.1, h2.2.trans h1.2⟩

theorem stays_closed (A : App σ τ) (other : Option (σ → Effect σ)) : NoExit (fileApp A other) Stays where
  core := Apart.core
    { refl := fun w => ⟨rfl, rfl⟩
      trans := stays_trans
      handler := fun c vals w => stays_trans (stays_effect w (A.handler c.fn w.app.1 vals) w.app.2 rfl) (stays_note _ _ rfl)
      note := fun w e h => stays_note w e (by cases e <;> first | rfl | cases h)
      put := fun w s => ⟨rfl, rfl⟩
      exception := by
        intro f hf w l e
        simp only [fileApp, Option.map_eq_some_iff] at hf
        obtain ⟨g, _, rfl⟩ := hf
        exact stays_effect w _ _ rfl
      wrong := by
        intro f hf w l
        simp only [fileApp, Option.map_eq_some_iff] at hf
        obtain ⟨g, _, rfl⟩ := hf
        exact stays_effect w _ _ rfl
      enter := fun w i _ => ⟨rfl, rfl⟩ }
  exit := fun w => stays_note w _ rfl
  bang := fun w n => stays_note w _ rfl
  help := fun w s => stays_note w _ rfl
  history := fun w s => stays_note w _ rfl
  hist := fun w h => ⟨rfl, rfl⟩

theorem stays_prompt {w w' : World (σ × Bool) τ} (h : prompt w = .ok w') : Stays w w' := by
  unfold prompt at h
  split at h
  · cases h; exact ⟨rfl, rfl⟩
  · split at h
    · cases h; exact ⟨rfl, rfl⟩
    · cases h

theorem stays_opt (w : World (σ × Bool) τ) (a : Option (σ → Effect σ)) (ev : Event) :
    (optAction (a.map (fun f (s : σ × Bool) => lift s.2 (f s.1))) ev w).1.app.2 = w.app.2 ∧
    (optAction (a.map (fun f (s : σ × Bool) => lift s.2 (f s.1))) ev w).1.log = w.log ++ mark a ev ∧
    (optAction (a.map (fun f (s : σ × Bool) => lift s.2 (f s.1))) ev w).2 = (does a w.app.1).exn := by
  obtain ⟨h1, h2, _, h4, _⟩ := optAction_result (a.map (fun f (s : σ × Bool) => lift s.2 (f s.1))) ev w
  refine ⟨?_, ?_, ?_⟩
  · rw [h2]; cases a <;> rfl
  · rw [h4]; cases a <;> rfl
  · rw [h1]; cases a <;> rfl

/-- What `Exit` does in a `CliFileSession`. -/
theorem file_exit (A : App σ τ) (w w' : World (σ × Bool) τ) (x : Option Exn) (h : exitSession (fileApp A none) w = .ok (w', x)) :
    w'.app.2 = true ∧ ((x = none ∧ ∃ cmds, w'.log = w.log ++ .exitSession :: mark A.exitGlobal .exitGlobal ++ [.saved cmds]) ∨
      (∃ e f s, x = some e ∧ A.exitGlobal = some f ∧ (f s).exn = some e ∧ w'.log = w.log ++ [.exitSession, .exitGlobal]) ∨
      (∃ e t cmds, x = some e ∧ A.storeFails t cmds = some e ∧ w'.log = w.log ++ .exitSession :: mark A.exitGlobal .exitGlobal)) := by
  rw [exitSession_eq] at h
  simp only [fileApp] at h
  obtain ⟨a1, a2, _, a4, _⟩ := optAction_result (τ := τ) (some (fun (s : σ × Bool) => (⟨(s.1, true), [], none⟩ : Effect (σ × Bool)))) .exitSession w
  cases ho : optAction (some (fun (s : σ × Bool) => (⟨(s.1, true), [], none⟩ : Effect (σ × Bool)))) .exitSession w with
  | mk w1 x1 =>
    rw [ho] at h a1 a2 a4
    simp only [does, mark, Option.isSome_some, if_true] at a1 a2 a4
    subst a1
    simp only at h
    obtain ⟨b1, b2, b3⟩ := stays_opt w1 A.exitGlobal .exitGlobal
    cases ho2 : optAction (A.exitGlobal.map (fun f (s : σ × Bool) => lift s.2 (f s.1))) .exitGlobal w1 with
    | mk w2 x2 =>
      rw [ho2] at b1 b2 b3
      rw [show optAction (Option.map (fun f (s : σ × Bool) => lift s.2 (f s.1)) A.exitGlobal) Event.exitGlobal w1 = (w2, x2) from ho2] at h
      simp only at b1 b2 b3
      have hfl : w2.app.2 = true := by rw [b1, a2]
      cases x2 with
      | some e =>
        cases h
        refine ⟨hfl, .inr (.inl ?_)⟩
        cases hg : A.exitGlobal with
        | none => rw [hg] at b3; cases b3
        | some f =>
          rw [hg] at b3 b2
          exact ⟨e, f, w1.app.1, rfl, rfl, b3.symm, by rw [b2, a4]; simp [mark]⟩
      | none =>
        simp only at h
        split at h
        · cases h
        · rename_i cmds _
          split at h
          · rename_i e he
            cases h
            exact ⟨hfl, .inr (.inr ⟨e, _, cmds, rfl, he, by simp [b2, a4]⟩)⟩
          · cases h
            exact ⟨hfl, .inl ⟨rfl, cmds, by simp [World.note, b2, a4]⟩⟩

/-- The member `exit` is set when the exit sequence has begun. -/
def Flag (w : World (σ × Bool) τ) : Prop := w.app.2 = true ↔ ends w.log ≠ []

theorem flag_stays {w w' : World (σ × Bool) τ} (h : Stays w w') (f : Flag w) : Flag w' := by
  unfold Flag at *
  rw [h.1, h.2]; exact f

/-- The exit sequence, complete, or cut short by the exit action of the `Cli` or the storage, which throws. -/
def Sequence (A : App σ τ) (evs : List Event) : Prop :=
  (∃ cmds, evs = .exitSession :: mark A.exitGlobal .exitGlobal ++ [.saved cmds]) ∨
  (evs = [.exitSession, .exitGlobal] ∧ ∃ f s, A.exitGlobal = some f ∧ (f s).exn ≠ none) ∨
  (evs = .exitSession :: mark A.exitGlobal .exitGlobal ∧ ∃ t c, A.storeFails t c ≠ none)

theorem ends_sequence (A : App σ τ) (cmds : List Str) : ends (.exitSession :: mark A.exitGlobal .exitGlobal ++ [.saved cmds]) = .exitSession :: mark A.exitGlobal .exitGlobal ++ [.saved cmds] := by
  unfold ends mark
  rw [List.filter_eq_self]
  intro e he
  split at he <;> simp at he
  · rcases he with rfl | rfl | rfl <;> rfl
  · rcases he with rfl | rfl <;> rfl

theorem exit_ends (A : App σ τ) {w w' : World (σ × Bool) τ} {x : Option Exn} (h : exitSession (fileApp A none) w = .ok (w', x)) :
    w'.app.2 = true ∧ ∃ evs, ends w'.log = ends w.log ++ evs ∧ Sequence A evs ∧ (x = none → ∃ cmds, evs = .exitSession :: mark A.exitGlobal .exitGlobal ++ [.saved cmds]) := by
  obtain ⟨h1, h2⟩ := file_exit A w w' x h
  refine ⟨h1, ?_⟩
  rcases h2 with ⟨rfl, cmds, h2⟩ | ⟨e, f, s, rfl, h3, h4, h2⟩ | ⟨e, t, c, rfl, h3, h2⟩
  · refine ⟨_, ?_, .inl ⟨cmds, rfl⟩, fun _ => ⟨cmds, rfl⟩⟩
    rw [h2, List.append_assoc, ends_append, ends_sequence]
  · refine ⟨[.exitSession, .exitGlobal], by rw [h2, ends_append]; rfl, .inr (.inl ⟨rfl, f, s, h3, by simp [h4]⟩), by simp⟩
  · refine ⟨.exitSession :: mark A.exitGlobal .exitGlobal, ?_, .inr (.inr ⟨rfl, t, c, by simp [h3]⟩), by simp⟩
    rw [h2, ends_append]
    congr 1
    unfold mark
    split <;> rfl

theorem sequence_ne {A : App σ τ} {evs : List Event} (h : Sequence A evs) : evs ≠ [] := by
  rcases h with ⟨cmds, rfl⟩ | ⟨rfl, _⟩ | ⟨rfl, _⟩ <;> simp

/-- Feeding a line to a session that has not begun to exit: it still has not, or it has gone through the exit sequence once. -/
theorem feed_ends (A : App σ τ) {fuel : Nat} {line : Str} {w w' : World (σ × Bool) τ} {x : Option Exn} (hw : ends w.log = []) (hf : Flag w)
    (h : feed (fileApp A none) fuel line w = .ok (w', x)) : Flag w' ∧ (ends w'.log = [] ∨ Sequence A (ends w'.log)) := by
  rcases feed_once (stays_closed A none) fuel line w w' x h with q | ⟨w1, w2, x2, q1, q2, q3⟩
  · exact ⟨flag_stays q hf, .inl (q.1.trans hw)⟩
  · obtain ⟨k1, evs, k2, k3, _⟩ := exit_ends A q2
    rw [q1.1, hw, List.nil_append] at k2
    refine ⟨?_, .inr ?_⟩
    · refine flag_stays q3 ?_
      unfold Flag
      simp [k1, k2, sequence_ne k3]
    · rw [q3.1, k2]; exact k3

/-! ### C55 -/

/-- The specification of what a session does with the lines `ls`: as long as the exit sequence has not begun, it writes the prompt and feeds the next line, or calls `Exit` if there is none.
    `fed` are the lines that have been fed in the end. -/
inductive Plays (A : App (σ × Bool) τ) (fuel : Nat) : World (σ × Bool) τ → List Str → List Str → World (σ × Bool) τ → Option Exn → Prop
  | over {w ls} : ends w.log ≠ [] → Plays A fuel w ls [] w none
  | eof {w w1 w2 x} : ends w.log = [] → prompt w = .ok w1 → exitSession A w1 = .ok (w2, x) → Plays A fuel w [] [] w2 x
  | line {w w1 w2 w3 l ls fed x} : ends w.log = [] → prompt w = .ok w1 → feed A fuel l w1 = .ok (w2, none) → Plays A fuel w2 ls fed w3 x → Plays A fuel w (l :: ls) (l :: fed) w3 x
  | thrown {w w1 w2 l ls e} : ends w.log = [] → prompt w = .ok w1 → feed A fuel l w1 = .ok (w2, some e) → Plays A fuel w (l :: ls) [l] w2 (some e)

theorem cut_none {s : Str} (h : b%'\n' ∉ s) : cut s = none := by
  induction s with
  | nil => rfl
  | cons c s ih =>
    simp only [List.mem_cons, not_or] at h
    have h1 : ¬ c = b%'\n' := fun e => h.1 e.symm
    simp [cut, h1, ih h.2]

theorem cut_some {l : Str} (h : b%'\n' ∉ l) (r : Str) : cut (l ++ b%'\n' :: r) = some (l, r) := by
  induction l with
  | nil => rfl
  | cons c l ih =>
    simp only [List.mem_cons, not_or] at h
    have h1 : ¬ c = b%'\n' := fun e => h.1 e.symm
    simp [cut, h1, ih h.2]

theorem cut_length {s l r : Str} (h : cut s = some (l, r)) : r.length < s.length := by
  induction s generalizing l r with
  | nil => cases h
  | cons c s ih =>
    simp only [cut] at h
    split at h
    · cases h; simp
    · simp only [Option.map_eq_some_iff] at h
      obtain ⟨⟨a, b⟩, h1, h2⟩ := h
      cases h2
      have := ih h1
      simp; omega

theorem loop_plays (A : App σ τ) (fuel n : Nat) (ls : List Str) (rest : Str) : ∀ (d : Str) (fed : List Str) (w : World (σ × Bool) τ) (E : End σ τ), Lines d ls rest → Flag w →
    (ends w.log = [] ∨ Sequence A (ends w.log)) → loop (fileApp A none) fuel n (.of d) fed w = .ok (some E) →
    ∃ more, E.fed = fed ++ more ∧ Plays (fileApp A none) fuel w ls more E.w E.exn := by
  induction n generalizing ls with
  | zero =>
    intro d fed w E hd hf hs h
    unfold loop at h
    split at h
    · rename_i hx
      cases h
      exact ⟨[], by simp, .over (hf.1 hx)⟩
    · cases h
  | succ n ih =>
    intro d fed w E hd hf hs h
    unfold loop at h
    split at h
    · rename_i hx
      cases h
      exact ⟨[], by simp, .over (hf.1 hx)⟩
    · rename_i hx
      have hw : ends w.log = [] := by
        rcases hs with hs | hs
        · exact hs
        · exact absurd (hf.2 (sequence_ne hs)) hx
      simp only at h
      split at h
      · cases h
      · rename_i w1 hp
        have q := stays_prompt hp
        have hf1 := flag_stays q hf
        have hw1 : ends w1.log = [] := q.1.trans hw
        rw [show (In.of d).good = true from rfl, if_pos rfl] at h
        cases ls with
        | nil =>
          have hn : cut d = none := by
            have := hd.text
            simp at this
            rw [this]; exact cut_none hd.rest
          simp only [getline, show (In.of d).good = true from rfl, if_true, show (In.of d).data = d from rfl, hn, show (In.of d).broken = false from rfl,
            Bool.false_eq_true, if_false, exitThen] at h
          split at h
          · cases h
          · rename_i w2 e he
            cases h
            exact ⟨[], by simp, .eof hw hp he⟩
          · rename_i w2 he
            have hx2 := (exit_ends A he).1
            unfold loop at h
            simp only [hx2, if_true] at h
            cases h
            exact ⟨[], by simp, .eof hw hp he⟩
        | cons l ls =>
          have hl := hd.lines l (by simp)
          have hc : cut d = some (l, ls.flatMap (fun l => l ++ [b%'\n']) ++ rest) := by
            rw [hd.text, List.flatMap_cons, List.append_assoc, List.append_assoc]
            exact cut_some hl _
          simp only [getline, show (In.of d).good = true from rfl, if_true, show (In.of d).data = d from rfl, hc, show (In.of d).eof = false from rfl,
            Bool.false_eq_true, if_false] at h
          split at h
          · cases h
          · rename_i w2 e he
            cases h
            exact ⟨[l], rfl, .thrown hw hp he⟩
          · rename_i w2 he
            obtain ⟨k1, k2⟩ := feed_ends A hw1 hf1 he
            obtain ⟨more, m1, m2⟩ := ih ls _ (fed ++ [l]) w2 E ⟨rfl, fun x hx => hd.lines x (by simp [hx]), hd.rest⟩ k1 k2 h
            exact ⟨l :: more, by rw [m1]; simp, .line hw hp he m2⟩

theorem enter_stays (A : App σ τ) (other : Option (σ → Effect σ)) (w : World (σ × Bool) τ) : Stays w (enterSession (fileApp A other) w).1 := by
  have one : ∀ (a : Option (σ → Effect σ)) (ev : Event) (w : World (σ × Bool) τ), isEnd ev = false →
      Stays w (optAction (a.map (fun f (s : σ × Bool) => lift s.2 (f s.1))) ev w).1 := by
    intro a ev w hev
    obtain ⟨h1, h2, _⟩ := stays_opt w a ev
    refine ⟨?_, h1⟩
    rw [h2, ends_append]
    unfold mark
    split <;> simp [ends, hev]
  unfold enterSession
  have q1 := one A.enterGlobal .enterGlobal w rfl
  rw [show (fileApp A other).enterGlobal = A.enterGlobal.map (fun (f : σ → Effect σ) (s : σ × Bool) => lift s.2 (f s.1)) from rfl,
    show (fileApp A other).enterSession = A.enterSession.map (fun (f : σ → Effect σ) (s : σ × Bool) => lift s.2 (f s.1)) from rfl]
  cases ho : optAction (A.enterGlobal.map (fun f (s : σ × Bool) => lift s.2 (f s.1))) .enterGlobal w with
  | mk w1 x1 =>
    rw [ho] at q1
    cases x1 with
    | some e => exact q1
    | none => exact stays_trans q1 (one A.enterSession .enterSession w1 rfl)

/-- **C55** (part) A session on a text plays its lines that are ended by a newline, in order, up to and including the first one that begins to exit (or throws out of `Feed`); if there is none, it exits at the end.
    Missing: the last line, if it has no newline (refuted below). -/
theorem C55_lines_partial (A : App σ τ) (fuel n : Nat) (d : Str) (ls : List Str) (rest : Str) (hd : Lines d ls rest) (w : World (σ × Bool) τ) (h0 : w.app.2 = false) (hl : ends w.log = [])
    (E : End σ τ) (h : start (fileApp A none) fuel n (.of d) w = .ok (some E)) :
    let r := enterSession (fileApp A none) w
    (∀ e, r.2 = some e → E.fed = [] ∧ E.w = r.1 ∧ E.exn = some e) ∧ (r.2 = none → Plays (fileApp A none) fuel r.1 ls E.fed E.w E.exn) := by
  intro r
  have q : Stays w r.1 := enter_stays A none w
  unfold start at h
  cases hr : enterSession (fileApp A none) w with
  | mk w1 x1 =>
    have e1 : r = (w1, x1) := hr
    rw [e1] at q ⊢
    rw [hr] at h
    cases x1 with
    | some e => cases h; exact ⟨fun e' he => by (cases he; exact ⟨rfl, rfl, rfl⟩), fun he => (nomatch he)⟩
    | none =>
      refine ⟨fun e he => (nomatch he), fun _ => ?_⟩
      obtain ⟨more, m1, m2⟩ := loop_plays A fuel n ls rest d [] w1 E hd (flag_stays q (by simp [Flag, h0, hl])) (.inl (q.1.trans hl)) h
      rw [m1]; simpa using m2

/-- **C55** (part) In particular the lines fed are the first ones, in order; and all of them unless the session has begun to exit or an exception was thrown. -/
theorem C55_prefix_partial {A : App (σ × Bool) τ} {fuel : Nat} {w w' : World (σ × Bool) τ} {ls fed : List Str} {x : Option Exn} (h : Plays A fuel w ls fed w' x) :
    ∃ k, fed = ls.take k ∧ (fed ≠ ls → x ≠ none ∨ ends w'.log ≠ []) := by
  induction h with
  | over h => exact ⟨0, by simp, fun _ => .inr h⟩
  | eof _ _ _ => exact ⟨0, by simp, fun h => absurd rfl h⟩
  | line _ _ _ _ ih =>
    obtain ⟨k, h1, h2⟩ := ih
    exact ⟨k + 1, by simp [h1], fun h => h2 (fun e => h (by rw [e]))⟩
  | thrown _ _ _ => exact ⟨1, by simp, fun _ => .inl (by simp)⟩

/-- A new session satisfies what the theorems assume; it can be created if and only if both streams are good, and what is thrown otherwise names the first that is not (clifilesession.h:50-51). -/
theorem C56_new_session (A : App σ τ) (i : In) (outGood : Bool) (w : World σ τ) (io : Io) :
    (i.good = true ∧ outGood = true ∧ ∃ w', create A i outGood w io = .ok w' ∧ w'.app = (w.app, false) ∧ ends w'.log = [] ∧ w'.current = w.tree.root.id ∧ w'.exit = false) ∨
    ((i.good = false ∨ outGood = false) ∧ create A i outGood w io = .error (.std (if i.good = false then bs!"istream invalid" else bs!"ostream invalid"))) := by
  unfold create
  cases hi : i.good with
  | false => exact .inr ⟨.inl rfl, rfl⟩
  | true =>
    cases outGood with
    | false => exact .inr ⟨.inr rfl, rfl⟩
    | true => exact .inl ⟨rfl, rfl, _, rfl, rfl, rfl, rfl, rfl⟩

/-- The sample application on a stream. -/
def onFile : App (List Nat × Bool) (List Str) := fileApp Sample.app none
def fileWorld : World (List Nat × Bool) (List Str) := (create Sample.app (.of []) true Sample.world Sample.io).toOption.getD ⟨([], false), Sample.tree, fun _ => false, [], 0, [], Sample.io, [], History.init 1, 0, false, []⟩

/-- The calls and what has become of the stream. -/
def outcome (r : Except Fault (Option (End (List Nat) (List Str)))) : Option (List Str × List Nat × Bool × Nat) :=
  match r with
  | .ok (some E) => some (E.fed, E.w.app.1, E.exn.isSome, (ends E.w.log).length)
  | _ => none

/-- Two commands; then `exit`; the line after it is not read. -/
example : outcome (start onFile 3 9 (.of bs!"sub go\nany 1\nexit\nsub go\n") fileWorld) = some ([bs!"sub go", bs!"any 1", bs!"exit"], [5, 4], false, 2) := by decide +kernel

example : Lines bs!"sub go\nany 1\nexit\nsub go\n" [bs!"sub go", bs!"any 1", bs!"exit", bs!"sub go"] [] := ⟨rfl, by decide, by decide⟩

/-- **C55** Refuted: the last line is not executed if it has no newline at its end. -/
theorem C55_last_line_refuted : ∃ d : Str, d = bs!"any 1\nsub go" ∧ outcome (start onFile 3 9 (.of d) fileWorld) = some ([bs!"any 1"], [5], false, 2) := ⟨_, rfl, by decide +kernel⟩

/-- What a session on a stream has done, apart from what it has left of the stream. -/
def playedOut (r : Except Fault (Option (End σ τ))) : Except Fault (Option (World (σ × Bool) τ × List Str × Option Exn)) :=
  match r with
  | .error f => .error f
  | .ok none => .ok none
  | .ok (some E) => .ok (some (E.w, E.fed, E.exn))

theorem played_exit (A : App (σ × Bool) τ) (w : World (σ × Bool) τ) (i i' : In) (fed : List Str) {k k' : World (σ × Bool) τ → Except Fault (Option (End σ τ))} (hk : ∀ w, playedOut (k w) = playedOut (k' w)) :
    playedOut (exitThen A w i fed k) = playedOut (exitThen A w i' fed k') := by
  unfold exitThen
  cases exitSession A w with
  | error f => rfl
  | ok r =>
    obtain ⟨w', x⟩ := r
    cases x with
    | some e => rfl
    | none => exact hk w'

theorem played_ended (A : App (σ × Bool) τ) (fuel : Nat) : ∀ (n : Nat) (i i' : In) (fed : List Str) (w : World (σ × Bool) τ), i.eof = true → i'.eof = true → playedOut (loop A fuel n i fed w) = playedOut (loop A fuel n i' fed w)
  | 0, i, i', fed, w, _, _ => by
    unfold loop
    split <;> rfl
  | n + 1, i, i', fed, w, h, h' => by
    have g : i.good = false := by simp [In.good, h]
    have g' : i'.good = false := by simp [In.good, h']
    unfold loop
    split
    · rfl
    · simp only
      cases prompt w with
      | error f => rfl
      | ok w1 =>
        simp only [g, g', Bool.false_eq_true, if_false, getline, h, h', if_true]
        exact played_exit A w1 i i' fed fun w2 => played_exit A w2 _ _ fed fun w3 => played_ended A fuel n _ _ fed w3 rfl rfl

theorem played_loop (A : App (σ × Bool) τ) (fuel : Nat) {rest rest' : Str} (hr : b%'\n' ∉ rest) (hr' : b%'\n' ∉ rest') : ∀ (n : Nat) (ls : List Str) (fed : List Str) (w : World (σ × Bool) τ), (∀ l ∈ ls, b%'\n' ∉ l) →
    playedOut (loop A fuel n (.of (ls.flatMap (· ++ bs!"\n") ++ rest)) fed w) = playedOut (loop A fuel n (.of (ls.flatMap (· ++ bs!"\n") ++ rest')) fed w)
  | 0, ls, fed, w, _ => by
    unfold loop
    split <;> rfl
  | n + 1, [], fed, w, _ => by
    unfold loop
    split
    · rfl
    · simp only
      cases prompt w with
      | error f => rfl
      | ok w1 =>
        simp only [List.flatMap_nil, List.nil_append, getline, In.of, In.good, Bool.not_false, Bool.and_self, if_true, cut_none hr, cut_none hr', Bool.false_eq_true, if_false]
        exact played_exit A w1 _ _ fed fun w3 => played_ended A fuel n _ _ fed w3 rfl rfl
  | n + 1, l :: ls, fed, w, hl => by
    have e : ∀ r : Str, (l :: ls).flatMap (· ++ bs!"\n") ++ r = l ++ b%'\n' :: (ls.flatMap (· ++ bs!"\n") ++ r) := fun r => by simp
    unfold loop
    split
    · rfl
    · simp only
      cases prompt w with
      | error f => rfl
      | ok w1 =>
        simp only [e, getline, In.of, In.good, Bool.not_false, Bool.and_self, if_true, cut_some (hl l (by simp)), Bool.false_eq_true, if_false]
        cases feed A fuel l w1 with
        | error f => rfl
        | ok r =>
          obtain ⟨w2, x⟩ := r
          cases x with
          | some e => rfl
          | none => exact played_loop A fuel hr hr' n ls _ w2 fun l' h => hl l' (by simp [h])

/-- **C55** (refuted, in general) For every application and every session on a text: what stands behind the last newline makes no difference to what is executed, written, stored and thrown. In particular it is not executed, whatever it is. -/
theorem C55_rest_ignored_refuted (A : App (σ × Bool) τ) (fuel n : Nat) (d d' : Str) (ls : List Str) (rest rest' : Str) (hd : Lines d ls rest) (hd' : Lines d' ls rest') (w : World (σ × Bool) τ) :
    playedOut (start A fuel n (.of d) w) = playedOut (start A fuel n (.of d') w) := by
  obtain ⟨rfl, h1, h2⟩ := hd
  obtain ⟨rfl, _, h3⟩ := hd'
  unfold start
  cases enterSession A w with
  | mk w1 x =>
    cases x with
    | some e => rfl
    | none => exact played_loop A fuel h2 h3 n ls [] w1 h1

example : Lines bs!"any 1\nsub go" [bs!"any 1"] bs!"sub go" ∧ Lines bs!"any 1\n" [bs!"any 1"] [] := ⟨⟨rfl, by decide, by decide⟩, ⟨rfl, by decide, by decide⟩⟩

/-! ### C56 -/

/-- **C56** `Start` ends, whatever the application does, for every text and every state of the stream: after at most two rounds more than the text has characters. -/
theorem C56_terminates (A : App σ τ) (fuel : Nat) (i : In) (w : World (σ × Bool) τ) (n : Nat) (hn : i.data.length + 2 ≤ n) :
    start (fileApp A none) fuel n i w ≠ .ok none := by
  have stop : ∀ (n : Nat) (i : In) (fed : List Str) (w : World (σ × Bool) τ), w.app.2 = true → loop (fileApp A none) fuel n i fed w ≠ .ok none := by
    intro n i fed w hw h
    unfold loop at h
    simp [hw] at h
  -- not good: the next round is the last
  have last : ∀ (n : Nat) (i : In) (fed : List Str) (w : World (σ × Bool) τ), 1 ≤ n → i.good = false → loop (fileApp A none) fuel n i fed w ≠ .ok none := by
    intro n i fed w hn hg h
    cases n with
    | zero => omega
    | succ n =>
      unfold loop at h
      split at h
      · cases h
      · simp only at h
        split at h
        · cases h
        · rename_i w1 hp
          rw [hg] at h
          simp only [Bool.false_eq_true, if_false] at h
          unfold exitThen at h
          split at h
          · cases h
          · cases h
          · rename_i w2 he
            have hx2 := (exit_ends A he).1
            split at h
            · simp only at h
              split at h
              · cases h
              · cases h
              · rename_i w3 he3
                exact stop _ _ _ _ (exit_ends A he3).1 h
            · simp only at h
              split at h
              · cases h
              · cases h
              · rename_i w3 he3
                rcases feed_once (stays_closed A none) _ _ _ _ _ he3 with q | ⟨a, b, c, _, q2, q3⟩
                · exact stop _ _ _ _ (q.2.trans hx2) h
                · exact stop _ _ _ _ (q3.2.trans (exit_ends A q2).1) h
  have main : ∀ (n : Nat) (i : In) (fed : List Str) (w : World (σ × Bool) τ), i.data.length + 2 ≤ n → loop (fileApp A none) fuel n i fed w ≠ .ok none := by
    intro n
    induction n with
    | zero => intro i fed w hn; omega
    | succ n ih =>
      intro i fed w hn h
      cases hg : i.good with
      | false => exact last _ i fed w (by omega) hg h
      | true =>
        unfold loop at h
        split at h
        · cases h
        · simp only at h
          split at h
          · cases h
          · rename_i w1 hp
            simp only [hg, if_true, getline] at h
            cases hc : cut i.data with
            | some p =>
              obtain ⟨l, r⟩ := p
              have hlen := cut_length hc
              have he : i.eof = false := by simp [In.good] at hg; exact hg.1.1
              simp only [hc, he, Bool.false_eq_true, if_false] at h
              split at h
              · cases h
              · cases h
              · exact ih _ _ _ (by simp only; omega) h
            | none =>
              simp only [hc] at h
              cases hb : i.broken with
              | true =>
                have he : i.eof = false := by simp [In.good] at hg; exact hg.1.1
                simp only [hb, if_true, he, Bool.false_eq_true, if_false] at h
                split at h
                · cases h
                · cases h
                · exact last _ _ _ _ (by omega) (by simp [In.good]) h
              | false =>
                simp only [hb, Bool.false_eq_true, if_false, if_true] at h
                unfold exitThen at h
                split at h
                · cases h
                · cases h
                · rename_i w2 he
                  exact stop _ _ _ _ (exit_ends A he).1 h
  intro h
  unfold start at h
  split at h
  · cases h
  · exact main _ _ _ _ hn h

theorem plays_ends (A : App σ τ) {fuel : Nat} {w w' : World (σ × Bool) τ} {ls fed : List Str} {x : Option Exn} (h : Plays (fileApp A none) fuel w ls fed w' x)
    (hf : Flag w) (hs : ends w.log = [] ∨ Sequence A (ends w.log)) : (ends w'.log = [] ∧ x ≠ none) ∨ Sequence A (ends w'.log) := by
  induction h with
  | over h => exact .inr (hs.resolve_left h)
  | eof h hp he =>
    obtain ⟨_, evs, k1, k2, _⟩ := exit_ends A he
    rw [(stays_prompt hp).1, h, List.nil_append] at k1
    exact .inr (k1 ▸ k2)
  | line h hp hfd _ ih =>
    have q := stays_prompt hp
    obtain ⟨k1, k2⟩ := feed_ends A (q.1.trans h) (flag_stays q hf) hfd
    exact ih k1 k2
  | thrown h hp hfd =>
    have q := stays_prompt hp
    obtain ⟨k1, k2⟩ := feed_ends A (q.1.trans h) (flag_stays q hf) hfd
    rcases k2 with k2 | k2
    · exact .inl ⟨k2, by simp⟩
    · exact .inr k2

theorem lines_total (d : Str) : ∃ ls rest, Lines d ls rest := by
  induction d with
  | nil => exact ⟨[], [], rfl, by simp, by simp⟩
  | cons c d ih =>
    obtain ⟨ls, rest, k⟩ := ih
    by_cases hc : c = b%'\n'
    · subst hc
      exact ⟨[] :: ls, rest, by simp [k.text], by simpa using k.lines, k.rest⟩
    · cases ls with
      | nil => exact ⟨[], c :: rest, by simp [k.text], by simp, by simpa [k.rest] using fun e => hc e.symm⟩
      | cons l ls =>
        refine ⟨(c :: l) :: ls, rest, by simp [k.text], ?_, k.rest⟩
        intro x hx
        rcases List.mem_cons.1 hx with rfl | hx
        · have := k.lines l (by simp)
          simpa [this] using fun e => hc e.symm
        · exact k.lines x (by simp [hx])

/-- **C56** (part) If `Start` on a text returns normally and neither the exit action of the `Cli` nor the storage ever throws, the exit sequence has run exactly once, completely and in order. Missing: exceptions that leave `Start`, and a throwing exit action
    or storage (refuted below). -/
theorem C56_once_partial (A : App σ τ) (fuel n : Nat) (d : Str) (w : World (σ × Bool) τ) (h0 : w.app.2 = false) (hl : ends w.log = []) (hg : ∀ f s, A.exitGlobal = some f → (f s).exn = none)
    (hs : ∀ t c, A.storeFails t c = none) (E : End σ τ) (h : start (fileApp A none) fuel n (.of d) w = .ok (some E)) (hx : E.exn = none) :
    ∃ cmds, ends E.w.log = .exitSession :: mark A.exitGlobal .exitGlobal ++ [.saved cmds] := by
  obtain ⟨ls, rest, hd⟩ := lines_total d
  obtain ⟨p1, p2⟩ := C55_lines_partial A fuel n d ls rest hd w h0 hl E h
  have q := enter_stays A none w
  cases hr : (enterSession (fileApp A none) w).2 with
  | some e => rw [(p1 e hr).2.2] at hx; cases hx
  | none =>
    rcases plays_ends A (p2 hr) (flag_stays q (by simp [Flag, h0, hl])) (.inl (q.1.trans hl)) with ⟨_, k⟩ | k
    · exact absurd hx k
    · rcases k with ⟨cmds, k⟩ | ⟨_, f, s, k1, k2⟩ | ⟨_, t, c, k1⟩
      · exact ⟨cmds, k⟩
      · exact absurd (hg f s k1) k2
      · exact absurd (hs t c) k1

/-- What `Start` does with the exit sequence, and whether it returned normally. -/
def ending (r : Except Fault (Option (End (List Nat) (List Str)))) : Option (List Nat × Bool × List Str) :=
  match r with
  | .ok (some E) => some ((ends E.w.log).map (fun | .exitSession => 1 | .exitGlobal => 2 | _ => 3), E.exn.isSome, E.w.storage)
  | _ => none

/-- With both exit actions, at the end of the text and by `exit`; the history has room for one command. -/
example : ending (start (fileApp actions none) 3 9 (.of bs!"any 1\n") fileWorld) = some ([1, 2, 3], false, [bs!"any 1"]) ∧
    ending (start (fileApp actions none) 3 9 (.of bs!"any 1\nexit\n") fileWorld) = some ([1, 2, 3], false, [bs!"exit"]) := by decide +kernel

/-- A device that fails in the middle of a line: this line is fed, then the session exits, once. -/
example : outcome (start onFile 3 9 { In.of bs!"sub go\nany 1" with broken := true } fileWorld) = some ([bs!"sub go", bs!"any 1", []], [5, 4], false, 2) := by decide +kernel

/-- **C56** Refuted: if the exit action of the `Cli` throws, the history is not saved. -/
theorem C56_throwing_exit_action_refuted : ∃ A : App (List Nat) (List Str), ending (start (fileApp A none) 3 9 (.of bs!"exit\n") fileWorld) = some ([1, 2], false, []) :=
  ⟨{ Sample.app with exitGlobal := some (fun s => ⟨s, [], some (.std bs!"no")⟩) }, by decide +kernel⟩

/-- **C56** Refuted: if the storage throws, the session is not over after `exit` (`Start` returns, but the flag that suppresses prompts is not set). -/
theorem C56_throwing_storage_refuted : ∃ A : App (List Nat) (List Str), A.exitGlobal = none ∧
    ending (start (fileApp A none) 3 9 (.of bs!"exit\n") fileWorld) = some ([1], false, []) :=
  ⟨{ Sample.app with store := fun t _ => t, storeFails := fun _ _ => some (.std bs!"disk full") }, rfl, by decide +kernel⟩

/-- **C56** Refuted: if the exception handler of the `Cli` throws, `Start` is left without exit sequence. -/
theorem C56_throwing_handler_refuted : ∃ A : App (List Nat) (List Str), ending (start (fileApp A none) 3 9 (.of bs!"boom\nexit\n") fileWorld) = some ([], true, []) :=
  ⟨{ Sample.app with onException := some (fun s _ e => ⟨s, [], some e⟩) }, by decide +kernel⟩

/-- **C56** Refuted: if the end of the stream has been met before `Start` is called (for example because the program has read it), the exit sequence runs twice. -/
theorem C56_twice_refuted : ending (start onFile 3 9 { In.of [] with eof := true } fileWorld) = some ([1, 3, 1, 3], false, []) := by decide +kernel

theorem own_exit (A : App σ τ) (f : σ → Effect σ) (hf : ∀ s, (f s).exn = none) (hg : ∀ g s, A.exitGlobal = some g → (g s).exn = none) (hs : ∀ t c, A.storeFails t c = none) (w : World (σ × Bool) τ) (hh : History.WF w.hist) :
    ∃ w', exitSession (fileApp A (some f)) w = .ok (w', none) ∧ w'.app.2 = w.app.2 ∧ w'.hist = w.hist ∧ w'.exit = true := by
  obtain ⟨w', cmds, h1, _, h2, _, _, _, h3⟩ := C57_exit (fileApp A (some f)) (fun s => lift s.2 (f s.1)) rfl w hh (hf _) (by
    show (does (A.exitGlobal.map (fun (f : σ → Effect σ) (s : σ × Bool) => lift s.2 (f s.1))) _).exn = none
    cases hG : A.exitGlobal with
    | none => rfl
    | some g => exact hg g _ hG) (hs _)
  refine ⟨w', h1, ?_, closed_exit (closed_hist _) _ _ _ h1, h3⟩
  rw [h2]
  show (does (A.exitGlobal.map (fun (f : σ → Effect σ) (s : σ × Bool) => lift s.2 (f s.1))) _).app.2 = _
  cases A.exitGlobal <;> rfl

/-- **C56** Refuted: if the user sets an exit action for the session (`CliSession::ExitAction`), it replaces the one that ends the loop, and `Start` never ends: at the end of the text it goes through the exit
    sequence for ever. -/
theorem C56_own_exit_action_refuted (A : App σ τ) (f : σ → Effect σ) (hf : ∀ s, (f s).exn = none) (hg : ∀ g s, A.exitGlobal = some g → (g s).exn = none) (hs : ∀ t c, A.storeFails t c = none)
    (he1 : A.enterGlobal = none) (he2 : A.enterSession = none) (fuel n : Nat) (w : World (σ × Bool) τ) (h0 : w.app.2 = false) (hh : History.WF w.hist)
    (hp : ∃ m k p, w.tree.locate w.current = some ((m, k) :: p)) : start (fileApp A (some f)) fuel n (.of []) w = .ok none := by
  have forever : ∀ (n : Nat) (i : In) (fed : List Str) (w : World (σ × Bool) τ), i.eof = true → w.app.2 = false → History.WF w.hist → w.exit = true →
      loop (fileApp A (some f)) fuel n i fed w = .ok none := by
    intro n
    induction n with
    | zero => intro i fed w hi hw _ _; unfold loop; simp [hw]
    | succ n ih =>
      intro i fed w hi hw hh hx
      unfold loop
      have hpr : prompt w = .ok w := by simp [prompt, hx]
      have hgood : i.good = false := by simp [In.good, hi]
      obtain ⟨w1, a1, a2, a3, a4⟩ := own_exit A f hf hg hs w hh
      obtain ⟨w2, b1, b2, b3, b4⟩ := own_exit A f hf hg hs w1 (a3 ▸ hh)
      simp only [hw, Bool.false_eq_true, if_false, hpr, hgood, exitThen, a1, getline, hi, if_true, b1]
      exact ih _ _ _ rfl (by rw [b2, a2, hw]) (by rw [b3, a3]; exact hh) b4
  have hent : enterSession (fileApp A (some f)) w = (w, none) := by
    unfold enterSession
    simp only [fileApp, he1, he2, Option.map_none, optAction]
  unfold start
  rw [hent]
  simp only
  cases n with
  | zero => unfold loop; simp [h0]
  | succ n =>
    obtain ⟨m, k, p, hp⟩ := hp
    obtain ⟨w1, h1, e1, e2⟩ : ∃ w1, prompt w = .ok w1 ∧ w1.app = w.app ∧ w1.hist = w.hist := by
      unfold prompt
      split
      · exact ⟨_, rfl, rfl, rfl⟩
      · rw [hp]; exact ⟨_, rfl, rfl, rfl⟩
    obtain ⟨w2, b1, b2, b3, b4⟩ := own_exit A f hf hg hs w1 (e2 ▸ hh)
    unfold loop
    simp only [h0, Bool.false_eq_true, if_false, h1, show (In.of []).good = true from rfl, if_true, getline, show (In.of []).data = [] from rfl, cut, show (In.of []).broken = false from rfl, exitThen, b1]
    exact forever _ _ _ _ rfl (by rw [b2, e1, h0]) (by rw [b3, e2]; exact hh) b4

example : ending (start (fileApp actions (some (fun s => ⟨103 :: s, [], none⟩))) 3 50 (.of bs!"any 1\n") fileWorld) = none := by decide +kernel

end Verif.Props
