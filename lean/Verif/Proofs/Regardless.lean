import Verif.Model.Session

set_option linter.unusedSimpArgs false

/-!
# `Feed` does not look at the exit flag
-/

namespace Verif.Regardless
open FromString (Value)

variable {σ τ : Type} {b : Bool}

/-- The states differ at most in the exit flag, which is set in the second if it is in the first or if `b`. -/
def Beside (b : Bool) (w v : World σ τ) : Prop := v = { w with exit := w.exit || b }

theorem like_act {w v : World σ τ} (h : Beside b w v) (a : Act) : Beside b (w.act a) (v.act a) := by
  subst h
  cases a <;> simp only [World.act]
  · rfl
  · rfl
  · split <;> rfl
  · split <;> rfl
  · split <;> rfl
  · split <;> rfl
  · rfl

theorem like_acts (as : List Act) : ∀ {w v : World σ τ}, Beside b w v → Beside b (as.foldl World.act w) (as.foldl World.act v) := by
  induction as with
  | nil => intro w v h; exact h
  | cons a as ih => intro w v h; exact ih (like_act h a)

theorem like_effect {w v : World σ τ} (h : Beside b w v) (e : Effect σ) : Beside b (w.effect e) (v.effect e) := by
  subst h
  exact like_acts _ rfl

theorem like_run {w v : World σ τ} (h : Beside b w v) (f : σ → Effect σ) : Beside b (w.effect (f w.app)) (v.effect (f v.app)) := by
  rw [show v.app = w.app by subst h; rfl]
  exact like_effect h _

theorem like_note {w v : World σ τ} (h : Beside b w v) (e : Event) : Beside b (w.note e) (v.note e) := by
  subst h; rfl

theorem like_put {w v : World σ τ} (h : Beside b w v) (s : Str) : Beside b (w.put s) (v.put s) := by
  subst h; rfl

theorem like_hist {w v : World σ τ} (h : Beside b w v) (x : History.History) : Beside b { w with hist := x } { v with hist := x } := by
  subst h; rfl

/-- Results that differ at most in the same way. -/
inductive Alike (b : Bool) {α : Type} : Except Fault (World σ τ × α) → Except Fault (World σ τ × α) → Prop
  | error (f) : Alike b (.error f) (.error f)
  | ok {w v} (o : α) : Beside b w v → Alike b (.ok (w, o)) (.ok (v, o))

/-- The same for results that are no faults. -/
def Twin (b : Bool) {α : Type} (p q : World σ τ × α) : Prop := Beside b p.1 q.1 ∧ p.2 = q.2

theorem Twin.alike {α : Type} {p q : World σ τ × α} (h : Twin b p q) : Alike b (.ok p) (.ok q) := by
  obtain ⟨w, o⟩ := p; obtain ⟨v, o'⟩ := q
  obtain ⟨h1, h2⟩ := h
  cases h2
  exact .ok _ h1

variable {A : App σ τ}

theorem twin_call (c : Cmd) (vals : List Value) {w v : World σ τ} (h : Beside b w v) : Twin b (callHandler A c vals w) (callHandler A c vals v) := by
  have hb : v.app = w.app := by subst h; rfl
  refine ⟨?_, by simp only [callHandler, hb]⟩
  have hs : w.snap = v.snap := by subst h; rfl
  simp only [callHandler, hb, hs]
  exact like_note (like_effect h _) _

theorem alike_execCmd (c : Cmd) (toks : List Str) {w v : World σ τ} (h : Beside b w v) : Alike b (execCmd A c toks w) (execCmd A c toks v) := by
  have hd : v.dis = w.dis := by subst h; rfl
  have key := fun vals => twin_call (A := A) c vals h
  unfold execCmd
  rw [hd]
  split
  · exact .ok _ h
  · split
    · split
      · exact .ok _ h
      · split
        · exact .error _
        · split
          · split
            · exact .ok _ h
            · exact .ok _ h
            · exact .ok _ h
            · exact .error _
            · rename_i vals _
              have k := key vals
              generalize callHandler A c vals w = p at k
              generalize callHandler A c vals v = q at k
              obtain ⟨w', x⟩ := p; obtain ⟨v', y⟩ := q
              obtain ⟨k1, k2⟩ := k
              cases k2
              match x with
              | none => exact .ok _ k1
              | some (.badCast _) => exact .ok _ k1
              | some (.std _) => exact .ok _ k1
              | some .other => exact .ok _ k1
          · exact .ok _ h
    · split
      · exact .error _
      · split
        · rename_i args _ 
          have k := key (args.map Value.str)
          generalize callHandler A c (args.map Value.str) w = p at k
          generalize callHandler A c (args.map Value.str) v = q at k
          obtain ⟨w', x⟩ := p; obtain ⟨v', y⟩ := q
          obtain ⟨k1, k2⟩ := k
          cases k2
          cases x with
          | none => exact .ok _ k1
          | some e => exact .ok _ k1
        · exact .ok _ h

theorem alike_goOn {w v : World σ τ} (h : Beside b w v) {r r' : Res σ τ} (hr : Alike b r r') {next next' : World σ τ → Res σ τ}
    (hn : ∀ {w v}, Beside b w v → Alike b (next w) (next' v)) : Alike b (goOn w r next) (goOn v r' next') := by
  cases hr with
  | error f => exact .error f
  | @ok w' v' o hl =>
    cases o with
    | found => exact .ok _ hl
    | thrown e => exact .ok _ hl
    | notFound =>
      have h1 : v.gen = w.gen := by subst h; rfl
      have h2 : v'.gen = w'.gen := by subst hl; rfl
      simp only [goOn, h1, h2]
      split
      · exact hn hl
      · exact .error _

theorem alike_scanEntries (toks : List Str) (sub : MenuInfo → Forest → World σ τ → Res σ τ) (hs : ∀ m k {w v}, Beside b w v → Alike b (sub m k w) (sub m k v)) :
    ∀ (f : Forest) {w v : World σ τ}, Beside b w v → Alike b (scanEntries A toks sub f w) (scanEntries A toks sub f v) := by
  intro f
  induction f with
  | nil => intro w v h; exact .ok _ h
  | cmd c rest ih => intro w v h; exact alike_goOn h (alike_execCmd c toks h) ih
  | menu m k rest _ ih => intro w v h; exact alike_goOn h (hs m k h) ih

theorem alike_handle (toks : List Str) : ∀ (via : Bool) (path : Path) {w v : World σ τ}, Beside b w v → Alike b (handleCommand A toks via path w) (handleCommand A toks via path v) := by
  induction toks with
  | nil =>
    intro via path w v h
    have hd : v.dis = w.dis := by subst h; rfl
    cases path with
    | nil => unfold handleCommand; exact .ok _ h
    | cons p anc =>
      obtain ⟨m, k⟩ := p
      unfold handleCommand
      rw [hd]
      split
      · exact .ok _ h
      · exact .error _
  | cons t rest ih =>
    intro via path w v h
    have hd : v.dis = w.dis := by subst h; rfl
    cases path with
    | nil => unfold handleCommand; exact .ok _ h
    | cons p anc =>
      obtain ⟨m, k⟩ := p
      unfold handleCommand
      rw [hd]
      split
      · exact .ok _ h
      · split
        · split
          · refine .ok _ ?_
            subst h
            rfl
          · refine alike_goOn h (alike_scanEntries rest _ ?_ k h) ?_
            · intro m k w v h; exact ih false _ h
            · intro w v h; exact ih true anc h
        · exact .ok _ h

theorem alike_scanCurrent (toks : List Str) {w v : World σ τ} (h : Beside b w v) : Alike b (scanCurrent A toks w) (scanCurrent A toks v) := by
  have hd : v.dis = w.dis := by subst h; rfl
  have ht : v.tree = w.tree := by subst h; rfl
  have hc : v.current = w.current := by subst h; rfl
  unfold scanCurrent
  rw [ht, hc]
  split
  · exact .error _
  · rename_i path _
    unfold scanCmds
    cases path with
    | nil => exact .ok _ h
    | cons p anc =>
      obtain ⟨m, k⟩ := p
      simp only [hd]
      split
      · exact .ok _ h
      · refine alike_goOn h (alike_scanEntries toks _ ?_ k h) ?_
        · intro m k w v h; exact alike_handle toks false _ h
        · intro w v h
          split
          · exact .error _
          · exact alike_handle toks true anc h

theorem twin_action {f : σ → Effect σ} (ev : Event) {w v : World σ τ} (h : Beside b w v) :
    Twin b (callAction f ev w) (callAction f ev v) :=
  have e : v.app = w.app := by subst h; rfl
  ⟨by simp only [callAction, e]; exact like_effect (like_note h ev) _, by simp only [callAction, e]⟩

theorem twin_optAction {a : Option (σ → Effect σ)} (ev : Event) {w v : World σ τ} (h : Beside b w v) :
    Twin b (optAction a ev w) (optAction a ev v) := by
  cases a with
  | none => exact ⟨h, rfl⟩
  | some f => exact twin_action ev h

theorem alike_exit {w v : World σ τ} (h : Beside b w v) : Alike b (exitSession A w) (exitSession A v) := by
  unfold exitSession
  cases hf : A.exitSession with
  | none => exact .ok _ h
  | some f =>
    simp only
    have k := twin_action (f := f) .exitSession h
    generalize callAction f .exitSession w = p at k
    generalize callAction f .exitSession v = q at k
    obtain ⟨w', x⟩ := p; obtain ⟨v', y⟩ := q
    obtain ⟨k1, k2⟩ := k
    cases k2
    cases x with
    | some e => exact .ok _ k1
    | none =>
      simp only
      have k := twin_optAction (a := A.exitGlobal) .exitGlobal k1
      simp only at k
      generalize optAction A.exitGlobal .exitGlobal w' = p at k
      generalize optAction A.exitGlobal .exitGlobal v' = q at k
      obtain ⟨w2, x⟩ := p; obtain ⟨v2, y⟩ := q
      obtain ⟨k1, k2⟩ := k
      cases k2
      cases x with
      | some e => exact .ok _ k1
      | none =>
        have hst : v2 = { w2 with exit := w2.exit || b } := k1

        subst hst
        simp only
        split
        · exact .error _
        · rename_i cmds _

          split
          · exact .ok _ rfl
          · exact .ok _ (by simp [Beside, World.note])

theorem twin_enter {w v : World σ τ} (h : Beside b w v) : Twin b (enterSession A w) (enterSession A v) := by
  unfold enterSession
  have k := twin_optAction (a := A.enterGlobal) .enterGlobal h
  generalize optAction A.enterGlobal .enterGlobal w = p at k
  generalize optAction A.enterGlobal .enterGlobal v = q at k
  obtain ⟨w', x⟩ := p; obtain ⟨v', y⟩ := q
  obtain ⟨k1, k2⟩ := k
  cases k2
  cases x with
  | some e => exact ⟨k1, rfl⟩
  | none => exact twin_optAction .enterSession k1

theorem twin_wrong (line : Str) {w v : World σ τ} (h : Beside b w v) : Twin b (wrongCommand A line w) (wrongCommand A line v) := by
  unfold wrongCommand
  cases hf : A.onWrong with
  | none => exact ⟨like_put (like_note h _) _, rfl⟩
  | some f => exact ⟨like_run (like_note h _) (fun s => f s line), by subst h; rfl⟩

theorem twin_report (line : Str) (e : Exn) {w v : World σ τ} (h : Beside b w v) : Twin b (reportException A line e w) (reportException A line e v) := by
  unfold reportException
  cases hf : A.onException with
  | none => exact ⟨like_put (like_note h _) _, rfl⟩
  | some f => exact ⟨like_run (like_note h _) (fun s => f s line e), by subst h; rfl⟩

theorem alike_catchAll (line : Str) {r r' : Res σ τ} (h : Alike b r r') : Alike b (catchAll A line r) (catchAll A line r') := by
  cases h with
  | error f => exact .error f
  | ok o h =>
    match o with
    | .found => exact .ok _ h
    | .notFound => exact .ok _ h
    | .thrown .other => exact .ok _ (like_put (like_note h _) _)
    | .thrown (.std _) => exact (twin_report line _ h).alike
    | .thrown (.badCast _) => exact (twin_report line _ h).alike

theorem alike_map {α β : Type} {r r' : Except Fault (World σ τ × α)} (h : Alike b r r') (g : α → β) :
    Alike b (match r with | .ok (w, x) => .ok (w, g x) | .error f => .error f) (match r' with | .ok (w, x) => .ok (w, g x) | .error f => .error f) := by
  cases h with
  | error f => exact .error f
  | ok o h => exact .ok _ h

theorem alike_scanGlobal (fd : Str → World σ τ → Except Fault (World σ τ × Option Exn)) (hf : ∀ l {w v}, Beside b w v → Alike b (fd l w) (fd l v)) (toks : List Str)
    {w v : World σ τ} (h : Beside b w v) : Alike b (scanGlobal A fd toks w) (scanGlobal A fd toks v) := by
  have hh : v.hist = w.hist := by subst h; rfl
  unfold scanGlobal
  split
  · exact .error _
  · split
    · subst h
      simp only [helpCmd, World.note, bind, Except.bind]
      cases w.tree.locate w.current with
      | none => exact .error _
      | some p => exact .ok _ rfl
    · split
      · have k := alike_exit (A := A) (like_note h (.builtin .exit))
        simp only [bind, Except.bind]
        generalize exitSession A (w.note (.builtin .exit)) = p at k
        generalize exitSession A (v.note (.builtin .exit)) = q at k
        cases k with
        | error f => exact .error f
        | ok o h => exact .ok _ h
      · split
        · rw [hh]
          split
          · exact .ok _ (like_put (like_note h _) _)
          · exact .ok _ (like_note h _)
        · exact .ok _ h
  · split
    · split
      · exact .ok _ h
      · exact .ok _ h
      · exact .error _
      · rename_i n _
        simp only [bind, Except.bind, World.note, hh]
        split
        · exact .error _
        · rename_i hx _
          cases History.at hx n with
          | error f => exact .error f
          | ok r => cases r with
            | none => exact .ok _ (like_hist (like_note h _) _)
            | some cmd =>
              have k := hf cmd (like_hist (like_note h (.builtin (.bang n))) hx)
              simp only [World.note] at k ⊢
              revert k
              generalize fd cmd _ = p
              generalize fd cmd _ = q
              intro k
              cases k with
              | error f => exact .error f
              | ok o h => exact .ok _ h
    · exact .ok _ h
  · exact .ok _ h

/-- Feeding the same line has the same visible effect. -/
theorem alike_feed (fuel : Nat) : ∀ (line : Str) {w v : World σ τ}, Beside b w v → Alike b (feed A fuel line w) (feed A fuel line v) := by
  induction fuel with
  | zero => intro line w v h; exact .error _
  | succ fuel ih =>
    intro line w v h
    have hh : v.hist = w.hist := by subst h; rfl
    unfold feed
    simp only [bind, Except.bind, hh]
    split
    · exact .error _
    · rename_i strs _
      split
      · exact .ok _ h
      · split
        · exact .error _
        · rename_i hx _
          refine alike_catchAll line ?_
          have k := alike_scanGlobal (A := A) (feed A fuel) ih strs (like_hist h hx)
          revert k
          generalize scanGlobal A (feed A fuel) strs _ = p
          generalize scanGlobal A (feed A fuel) strs _ = q
          intro k
          cases k with
          | error f => exact .error f
          | @ok w v o h =>
            cases o with
            | found => exact .ok _ h
            | thrown e => exact .ok _ h
            | notFound =>
              simp only
              have k := alike_scanCurrent (A := A) strs h
              revert k
              generalize scanCurrent A strs w = p
              generalize scanCurrent A strs v = q
              intro k
              cases k with
              | error f => exact .error f
              | @ok w v o h =>
                cases o with
                | found => exact .ok _ h
                | thrown e => exact .ok _ h
                | notFound =>
                  simp only
                  have k := twin_wrong (A := A) line h
                  generalize wrongCommand A line w = p at k
                  generalize wrongCommand A line v = q at k
                  obtain ⟨w', x⟩ := p; obtain ⟨v', y⟩ := q
                  obtain ⟨k1, k2⟩ := k
                  cases k2
                  cases x with
                  | none => exact .ok _ k1
                  | some e => exact .ok _ k1

end Verif.Regardless
