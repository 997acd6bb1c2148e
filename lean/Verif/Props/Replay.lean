import Verif.Props.Observed
import Verif.Proofs.FeedExit

set_option linter.unusedSimpArgs false

/-!
# C11: the record of a session tells the truth

Many theorems say which calls a line leads to, in terms of the events recorded in the state. Here it is proved that these events account for everything that happens: the state of the application, the menus, the flags, the
output are those that result from doing what the events say, in this order, each once, and from nothing else.
-/

namespace Verif.Props
open Spec
open FromString (Value)

variable {σ τ : Type}

/-- The two states agree in all that user code can change or see. -/
structure Agree (u v : World σ τ) : Prop where
  app : v.app = u.app
  tree : v.tree = u.tree
  dis : v.dis = u.dis
  used : v.used = u.used
  gen : v.gen = u.gen
  io : v.io = u.io
  casts : v.casts = u.casts

/-- Doing what the events say, starting in one state, leads to the other one. -/
inductive Replay (A : App σ τ) : World σ τ → List Event → World σ τ → Prop
  | done {u v} : Agree u v → Replay A u [] v
  /-- the handler is called with these arguments, in the state of the menus noted, and ends like this -/
  | ran {u evs v c vals snap} : snap.tree = u.tree → snap.dis = u.dis → Replay A (u.effect (A.handler c.fn u.app vals)) evs v →
      Replay A u (.ran c vals snap (A.handler c.fn u.app vals).exn :: evs) v
  | wrong {u evs v line} : Replay A (u.effect (complain A line u.app)) evs v → Replay A u (.wrong line :: evs) v
  | reported {u evs v line e} : e ≠ .other → Replay A (u.effect (report A line (some e) u.app)) evs v → Replay A u (.reported line e :: evs) v
  | unknown {u evs v line} : Replay A (u.effect (report A line (some .other) u.app)) evs v → Replay A u (.unknown line :: evs) v
  | help {u evs v} (text : Str) : Replay A (u.effect ⟨u.app, [.out text], none⟩) evs v → Replay A u (.builtin .help :: evs) v
  | history {u evs v} (text : Str) : Replay A (u.effect ⟨u.app, [.out text], none⟩) evs v → Replay A u (.builtin .history :: evs) v
  | exit {u evs v} : Replay A u evs v → Replay A u (.builtin .exit :: evs) v
  | bang {u evs v n} : Replay A u evs v → Replay A u (.builtin (.bang n) :: evs) v
  | exitSession {u evs v f} : A.exitSession = some f → Replay A (u.effect (f u.app)) evs v → Replay A u (.exitSession :: evs) v
  | exitGlobal {u evs v f} : A.exitGlobal = some f → Replay A (u.effect (f u.app)) evs v → Replay A u (.exitGlobal :: evs) v
  | enterSession {u evs v f} : A.enterSession = some f → Replay A (u.effect (f u.app)) evs v → Replay A u (.enterSession :: evs) v
  | enterGlobal {u evs v f} : A.enterGlobal = some f → Replay A (u.effect (f u.app)) evs v → Replay A u (.enterGlobal :: evs) v
  | saved {u evs v cmds} : Replay A u evs v → Replay A u (.saved cmds :: evs) v

theorem Agree.refl (u : World σ τ) : Agree u u := ⟨rfl, rfl, rfl, rfl, rfl, rfl, rfl⟩
theorem Agree.trans {u v x : World σ τ} (h : Agree u v) (g : Agree v x) : Agree u x :=
  ⟨g.app.trans h.app, g.tree.trans h.tree, g.dis.trans h.dis, g.used.trans h.used, g.gen.trans h.gen, g.io.trans h.io, g.casts.trans h.casts⟩

theorem Agree.act {u v : World σ τ} (h : Agree u v) (a : Act) : Agree (u.act a) (v.act a) := by
  obtain ⟨h1, h2, h3, h4, h5, h6, h7⟩ := h
  cases a with
  | out s => exact ⟨h1, h2, h3, h4, h5, by simp [World.act, World.put, h6], h7⟩
  | cout s => exact ⟨h1, h2, h3, h4, h5, by simp [World.act, World.put, h6], by simp [World.act, World.put, h7]⟩
  | color on => exact ⟨h1, h2, h3, h4, h5, by simp [World.act, h6], h7⟩
  | enable id =>
    simp only [World.act, h2]
    split
    · exact ⟨h1, rfl, by simp only [h3], h4, h5, h6, h7⟩
    · exact ⟨h1, h2, h3, h4, h5, h6, h7⟩
  | disable id =>
    simp only [World.act, h2]
    split
    · exact ⟨h1, rfl, by simp only [h3], h4, h5, h6, h7⟩
    · exact ⟨h1, h2, h3, h4, h5, h6, h7⟩
  | remove id =>
    simp only [World.act, h2]
    split
    · exact ⟨h1, rfl, h3, h4, by simp [h5], h6, h7⟩
    · exact ⟨h1, h2, h3, h4, h5, h6, h7⟩
  | insert mid new =>
    simp only [World.act, h2, h4]
    split
    · exact ⟨h1, rfl, h3, rfl, by simp [h5], h6, h7⟩
    · exact ⟨h1, h2, h3, h4, h5, h6, h7⟩

theorem Agree.effect {u v : World σ τ} (h : Agree u v) (e : Effect σ) : Agree (u.effect e) (v.effect e) := by
  have : ∀ (as : List Act) {u v : World σ τ}, Agree u v → Agree (as.foldl World.act u) (as.foldl World.act v) := by
    intro as
    induction as with
    | nil => intro u v h; exact h
    | cons a as ih => intro u v h; exact ih (h.act a)
  exact this e.acts (u := { u with app := e.app }) (v := { v with app := e.app }) ⟨rfl, h.tree, h.dis, h.used, h.gen, h.io, h.casts⟩

theorem Replay.start {A : App σ τ} {v x : World σ τ} {evs : List Event} (g : Replay A v evs x) : ∀ {u}, Agree u v → Replay A u evs x := by
  induction g with
  | done h1 => intro u h; exact .done (h.trans h1)
  | @ran v evs x c vals snap h1 h2 _ ih =>
    intro u h
    have := ih (h.effect (A.handler c.fn v.app vals))
    rw [h.app] at this ⊢
    exact .ran (h1.trans h.tree) (h2.trans h.dis) this
  | wrong _ ih => intro u h; have := ih (h.effect _); rw [h.app] at this; exact .wrong this
  | reported hne _ ih => intro u h; have := ih (h.effect _); rw [h.app] at this; exact .reported hne this
  | unknown _ ih => intro u h; have := ih (h.effect _); rw [h.app] at this; exact .unknown this
  | help text _ ih => intro u h; have := ih (h.effect _); rw [h.app] at this; exact .help text this
  | history text _ ih => intro u h; have := ih (h.effect _); rw [h.app] at this; exact .history text this
  | exit _ ih => intro u h; exact .exit (ih h)
  | bang _ ih => intro u h; exact .bang (ih h)
  | exitSession hf _ ih => intro u h; have := ih (h.effect _); rw [h.app] at this; exact .exitSession hf this
  | exitGlobal hf _ ih => intro u h; have := ih (h.effect _); rw [h.app] at this; exact .exitGlobal hf this
  | enterSession hf _ ih => intro u h; have := ih (h.effect _); rw [h.app] at this; exact .enterSession hf this
  | enterGlobal hf _ ih => intro u h; have := ih (h.effect _); rw [h.app] at this; exact .enterGlobal hf this
  | saved _ ih => intro u h; exact .saved (ih h)

theorem Replay.trans {A : App σ τ} {u v x : World σ τ} {e1 e2 : List Event} (h : Replay A u e1 v) (g : Replay A v e2 x) : Replay A u (e1 ++ e2) x := by
  induction h with
  | done h1 => exact g.start h1
  | ran h1 h2 _ ih => exact .ran h1 h2 (ih g)
  | wrong _ ih => exact .wrong (ih g)
  | reported hne _ ih => exact .reported hne (ih g)
  | unknown _ ih => exact .unknown (ih g)
  | help text _ ih => exact .help text (ih g)
  | history text _ ih => exact .history text (ih g)
  | exit _ ih => exact .exit (ih g)
  | bang _ ih => exact .bang (ih g)
  | exitSession hf _ ih => exact .exitSession hf (ih g)
  | exitGlobal hf _ ih => exact .exitGlobal hf (ih g)
  | enterSession hf _ ih => exact .enterSession hf (ih g)
  | enterGlobal hf _ ih => exact .enterGlobal hf (ih g)
  | saved _ ih => exact .saved (ih g)

/-- The events recorded between two states account for the difference. -/
def Accounted (A : App σ τ) (w w' : World σ τ) : Prop := ∃ evs, w'.log = w.log ++ evs ∧ Replay A w evs w'

theorem accounted_trans {A : App σ τ} {a b c : World σ τ} (h1 : Accounted A a b) (h2 : Accounted A b c) : Accounted A a c := by
  obtain ⟨e1, h1, g1⟩ := h1
  obtain ⟨e2, h2, g2⟩ := h2
  exact ⟨e1 ++ e2, by rw [h2, h1, List.append_assoc], g1.trans g2⟩

theorem accounted_agree {A : App σ τ} {w w' : World σ τ} (h : w'.log = w.log) (g : Agree w w') : Accounted A w w' := ⟨[], by simp [h], .done g⟩

/-- The effect of a call after it has been recorded. -/
theorem agree_noted (w : World σ τ) (ev : Event) (e : Effect σ) : Agree (w.effect e) ((w.note ev).effect e) := Agree.effect (u := w) (v := w.note ev) ⟨rfl, rfl, rfl, rfl, rfl, rfl, rfl⟩ e

theorem log_noted (w : World σ τ) (ev : Event) (e : Effect σ) : ((w.note ev).effect e).log = w.log ++ [ev] := (effect_result (w.note ev) e).2.2.1

/-- Writing a text. -/
theorem agree_put (w : World σ τ) (ev : Event) (s : Str) : Agree (w.effect ⟨w.app, [.out s], none⟩) ((w.note ev).put s) := ⟨rfl, rfl, rfl, rfl, rfl, rfl, rfl⟩

theorem noExit_accounted (A : App σ τ) : NoExit A (Accounted A) where
  core :=
    { refl := fun w => accounted_agree rfl (.refl w)
      trans := accounted_trans
      handler := by
        intro c vals w
        exact ⟨[_], by rw [World.note, (effect_result w _).2.2.1], .ran rfl rfl (.done ⟨rfl, rfl, rfl, rfl, rfl, rfl, rfl⟩)⟩
      unknown := fun w l => ⟨[_], rfl, .unknown (.done (agree_put w _ _))⟩
      report := by
        intro l e w hne
        cases hf : A.onException with
        | some f =>
          have he : report A l (some e) w.app = f w.app l e := by cases e with | other => exact absurd rfl hne | _ => simp only [report, hf]
          have hw : (reportException A l e w).1 = (w.note (.reported l e)).effect (f w.app l e) := by simp only [reportException, hf]; rfl
          exact ⟨[_], by rw [hw, log_noted], .reported hne (by rw [he, hw]; exact .done (agree_noted w _ _))⟩
        | none =>
          have he : report A l (some e) w.app = ⟨w.app, [.out (e.what ++ bs!"\n")], none⟩ := by cases e with | other => exact absurd rfl hne | _ => simp only [report, hf, Exn.what]
          have hw : (reportException A l e w).1 = (w.note (.reported l e)).put (e.what ++ bs!"\n") := by simp only [reportException, hf]
          exact ⟨[_], by rw [hw]; rfl, .reported hne (by rw [he, hw]; exact .done (agree_put w _ _))⟩
      wrong := by
        intro l w
        cases hf : A.onWrong with
        | some f =>
          have he : complain A l w.app = f w.app l := by simp only [complain, hf]
          have hw : (wrongCommand A l w).1 = (w.note (.wrong l)).effect (f w.app l) := by simp only [wrongCommand, hf]; rfl
          exact ⟨[_], by rw [hw, log_noted], .wrong (by rw [he, hw]; exact .done (agree_noted w _ _))⟩
        | none =>
          have he : complain A l w.app = ⟨w.app, [.out (bs!"wrong command: " ++ l ++ bs!"\n")], none⟩ := by simp only [complain, hf]
          have hw : (wrongCommand A l w).1 = (w.note (.wrong l)).put (bs!"wrong command: " ++ l ++ bs!"\n") := by simp only [wrongCommand, hf]
          exact ⟨[_], by rw [hw]; rfl, .wrong (by rw [he, hw]; exact .done (agree_put w _ _))⟩
      enter := fun w i _ => accounted_agree rfl ⟨rfl, rfl, rfl, rfl, rfl, rfl, rfl⟩ }
  exit := fun w => ⟨[_], rfl, .exit (.done ⟨rfl, rfl, rfl, rfl, rfl, rfl, rfl⟩)⟩
  bang := fun w n => ⟨[_], rfl, .bang (.done ⟨rfl, rfl, rfl, rfl, rfl, rfl, rfl⟩)⟩
  help := fun w s => ⟨[_], rfl, .help s (.done (agree_put w _ _))⟩
  history := fun w s => ⟨[_], rfl, .history s (.done (agree_put w _ _))⟩
  hist := fun w h => accounted_agree rfl ⟨rfl, rfl, rfl, rfl, rfl, rfl, rfl⟩

theorem accounted_action {A : App σ τ} (w : World σ τ) (ev : Event) (a : Option (σ → Effect σ))
    (h : ∀ f, a = some f → ∀ (u v : World σ τ), Replay A (u.effect (f u.app)) [] v → Replay A u [ev] v) : Accounted A w (optAction a ev w).1 := by
  cases a with
  | none => exact accounted_agree rfl (.refl w)
  | some f => exact ⟨[ev], log_noted w _ _, h f rfl _ _ (.done (agree_noted w _ _))⟩

theorem accounted_exit {A : App σ τ} {w w' : World σ τ} {x : Option Exn} (h : exitSession A w = .ok (w', x)) : Accounted A w w' := by
  rw [exitSession_eq] at h
  split at h
  · cases h; exact accounted_agree rfl (.refl w)
  · rename_i f hf
    have q1 : Accounted A w (optAction (some f) .exitSession w).1 := accounted_action w .exitSession (some f) (fun g hg u v r => by cases hg; exact .exitSession hf r)
    split at h
    · rename_i he; rw [he] at q1; cases h; exact q1
    · rename_i w1 he
      rw [he] at q1
      have q2 : Accounted A w1 (optAction A.exitGlobal .exitGlobal w1).1 := accounted_action w1 .exitGlobal A.exitGlobal (fun g hg u v r => .exitGlobal hg r)
      split at h
      · rename_i hg; rw [hg] at q2; cases h; exact accounted_trans q1 q2
      · rename_i w2 hg
        rw [hg] at q2
        split at h
        · cases h
        · rename_i cmds _
          split at h
          · cases h; exact accounted_trans (accounted_trans q1 q2) (accounted_agree rfl ⟨rfl, rfl, rfl, rfl, rfl, rfl, rfl⟩)
          cases h
          exact accounted_trans (accounted_trans q1 q2) ⟨[.saved cmds], rfl, .saved (.done ⟨rfl, rfl, rfl, rfl, rfl, rfl, rfl⟩)⟩

/-- **C11** Whatever a line does, the events it adds to the record account for everything that has changed: the state of the application, the menus, the flags and the output are those that result from the calls recorded, with
    the arguments, the menus and the exceptions recorded, in this order and each once; `help` and `history` write a text (for which see C59 and C33). -/
theorem C11_accounted (A : App σ τ) (fuel : Nat) (line : Str) (w w' : World σ τ) (x : Option Exn) (h : feed A fuel line w = .ok (w', x)) :
    ∃ evs, w'.log = w.log ++ evs ∧ Replay A w evs w' := by
  rcases feed_once_last (noExit_accounted A) fuel line w w' x h with h1 | ⟨w1, w2, x2, h1, h2, h3, _⟩
  · exact h1
  · exact accounted_trans h1 (accounted_trans (accounted_exit h2) h3)

/-- **C57** The same for the start of a session. -/
theorem C57_enter_accounted (A : App σ τ) (w : World σ τ) : ∃ evs, (enterSession A w).1.log = w.log ++ evs ∧ Replay A w evs (enterSession A w).1 := by
  show Accounted A w _
  unfold Verif.enterSession
  have q1 : Accounted A w (optAction A.enterGlobal .enterGlobal w).1 := accounted_action w .enterGlobal A.enterGlobal (fun g hg u v r => .enterGlobal hg r)
  split
  · rename_i he; rw [he] at q1; exact q1
  · rename_i w1 he
    rw [he] at q1
    exact accounted_trans q1 (accounted_action w1 .enterSession A.enterSession (fun g hg u v r => .enterSession hg r))

/-- A line that calls a handler that throws: the call and the report. -/
example : ∃ w', feed Sample.app 1 bs!"boom" Sample.world = .ok (w', none) ∧ w'.app = [6] ∧ w'.log.length = 2 := ⟨_, rfl, rfl, rfl⟩

end Verif.Props
