import Verif.Model.Sessions

set_option linter.unusedSimpArgs false

/-!
# Sessions of an application whose visible behaviour does not depend on its state
-/

namespace Verif
open FromString (Value)

variable {σ τ : Type}

/-- What the functions of the application do and throw does not depend on the state of the application. -/
structure App.Blind (A : App σ τ) : Prop where
  handler : ∀ f s s' v, (A.handler f s v).acts = (A.handler f s' v).acts ∧ (A.handler f s v).exn = (A.handler f s' v).exn
  exception : ∀ f, A.onException = some f → ∀ s s' l e, (f s l e).acts = (f s' l e).acts ∧ (f s l e).exn = (f s' l e).exn
  wrong : ∀ f, A.onWrong = some f → ∀ s s' l, (f s l).acts = (f s' l).acts ∧ (f s l).exn = (f s' l).exn
  exitSession : ∀ f, A.exitSession = some f → ∀ s s', (f s).acts = (f s').acts ∧ (f s).exn = (f s').exn
  exitGlobal : ∀ f, A.exitGlobal = some f → ∀ s s', (f s).acts = (f s').acts ∧ (f s).exn = (f s').exn
  enterSession : ∀ f, A.enterSession = some f → ∀ s s', (f s).acts = (f s').acts ∧ (f s).exn = (f s').exn
  enterGlobal : ∀ f, A.enterGlobal = some f → ∀ s s', (f s).acts = (f s').acts ∧ (f s).exn = (f s').exn
  storage : ∀ t t' c, A.storeFails t c = A.storeFails t' c

/-- Two effects that look the same and leave related states. -/
def Effect.Same (Q : σ → σ → Prop) (e e' : Effect σ) : Prop := e.acts = e'.acts ∧ e.exn = e'.exn ∧ Q e.app e'.app

/-- The same for states of the application that are related by `Q`; the relation is kept. -/
structure App.BlindTo (A : App σ τ) (Q : σ → σ → Prop) : Prop where
  handler : ∀ f s s' v, Q s s' → (A.handler f s v).Same Q (A.handler f s' v)
  exception : ∀ f, A.onException = some f → ∀ s s' l e, Q s s' → (f s l e).Same Q (f s' l e)
  wrong : ∀ f, A.onWrong = some f → ∀ s s' l, Q s s' → (f s l).Same Q (f s' l)
  exitSession : ∀ f, A.exitSession = some f → ∀ s s', Q s s' → (f s).Same Q (f s')
  exitGlobal : ∀ f, A.exitGlobal = some f → ∀ s s', Q s s' → (f s).Same Q (f s')
  enterSession : ∀ f, A.enterSession = some f → ∀ s s', Q s s' → (f s).Same Q (f s')
  enterGlobal : ∀ f, A.enterGlobal = some f → ∀ s s', Q s s' → (f s).Same Q (f s')
  storage : ∀ t t' c, A.storeFails t c = A.storeFails t' c

theorem App.Blind.to {A : App σ τ} (h : A.Blind) : A.BlindTo (fun _ _ => True) :=
  ⟨fun f s s' v _ => ⟨(h.handler f s s' v).1, (h.handler f s s' v).2, trivial⟩, fun f hf s s' l e _ => ⟨(h.exception f hf s s' l e).1, (h.exception f hf s s' l e).2, trivial⟩,
    fun f hf s s' l _ => ⟨(h.wrong f hf s s' l).1, (h.wrong f hf s s' l).2, trivial⟩, fun f hf s s' _ => ⟨(h.exitSession f hf s s').1, (h.exitSession f hf s s').2, trivial⟩,
    fun f hf s s' _ => ⟨(h.exitGlobal f hf s s').1, (h.exitGlobal f hf s s').2, trivial⟩, fun f hf s s' _ => ⟨(h.enterSession f hf s s').1, (h.enterSession f hf s s').2, trivial⟩,
    fun f hf s s' _ => ⟨(h.enterGlobal f hf s s').1, (h.enterGlobal f hf s s').2, trivial⟩, h.storage⟩

/-- The states differ at most in the application's state, where they are related, and the storage. -/
def Like (Q : σ → σ → Prop) (w v : World σ τ) : Prop := ∃ s t, Q w.app s ∧ v = { w with app := s, storage := t }

variable {Q : σ → σ → Prop}

theorem Like.app {w v : World σ τ} (h : Like Q w v) : Q w.app v.app := by
  obtain ⟨s, t, hq, rfl⟩ := h; exact hq

theorem like_act {w v : World σ τ} (h : Like Q w v) (a : Act) : Like Q (w.act a) (v.act a) := by
  obtain ⟨s, t, hq, rfl⟩ := h
  cases a <;> simp only [World.act]
  · exact ⟨s, t, hq, rfl⟩
  · exact ⟨s, t, hq, rfl⟩
  · split <;> exact ⟨s, t, hq, rfl⟩
  · split <;> exact ⟨s, t, hq, rfl⟩
  · split <;> exact ⟨s, t, hq, rfl⟩
  · split <;> exact ⟨s, t, hq, rfl⟩
  · exact ⟨s, t, hq, rfl⟩

theorem like_acts (as : List Act) : ∀ {w v : World σ τ}, Like Q w v → Like Q (as.foldl World.act w) (as.foldl World.act v) := by
  induction as with
  | nil => intro w v h; exact h
  | cons a as ih => intro w v h; exact ih (like_act h a)

theorem like_effect {w v : World σ τ} (h : Like Q w v) {e e' : Effect σ} (he : e.Same Q e') : Like Q (w.effect e) (v.effect e') := by
  obtain ⟨s, t, hq, rfl⟩ := h
  unfold World.effect
  rw [he.1]
  exact like_acts _ ⟨e'.app, t, he.2.2, rfl⟩

theorem like_note {w v : World σ τ} (h : Like Q w v) (e : Event) : Like Q (w.note e) (v.note e) := by
  obtain ⟨s, t, hq, rfl⟩ := h; exact ⟨s, t, hq, rfl⟩

theorem like_put {w v : World σ τ} (h : Like Q w v) (s : Str) : Like Q (w.put s) (v.put s) := by
  obtain ⟨s, t, hq, rfl⟩ := h; exact ⟨s, t, hq, rfl⟩

theorem like_hist {w v : World σ τ} (h : Like Q w v) (x : History.History) : Like Q { w with hist := x } { v with hist := x } := by
  obtain ⟨s, t, hq, rfl⟩ := h; exact ⟨s, t, hq, rfl⟩

/-- Results that differ at most in the same way. -/
inductive Alike (Q : σ → σ → Prop) {α : Type} : Except Fault (World σ τ × α) → Except Fault (World σ τ × α) → Prop
  | error (f) : Alike Q (.error f) (.error f)
  | ok {w v} (o : α) : Like Q w v → Alike Q (.ok (w, o)) (.ok (v, o))

/-- The same for results that are no faults. -/
def Twin (Q : σ → σ → Prop) {α : Type} (p q : World σ τ × α) : Prop := Like Q p.1 q.1 ∧ p.2 = q.2

theorem Twin.alike {α : Type} {p q : World σ τ × α} (h : Twin Q p q) : Alike Q (.ok p) (.ok q) := by
  obtain ⟨w, o⟩ := p; obtain ⟨v, o'⟩ := q
  obtain ⟨h1, h2⟩ := h
  cases h2
  exact .ok _ h1

variable {A : App σ τ} (hA : A.BlindTo Q)
include hA

theorem twin_call (c : Cmd) (vals : List Value) {w v : World σ τ} (h : Like Q w v) : Twin Q (callHandler A c vals w) (callHandler A c vals v) := by
  have hb := hA.handler c.fn w.app v.app vals h.app
  refine ⟨?_, hb.2.1⟩
  have hs : w.snap = v.snap := by obtain ⟨s, t, hq, rfl⟩ := h; rfl
  simp only [callHandler, hb.2.1, hs]
  exact like_note (like_effect h hb) _

theorem alike_execCmd (c : Cmd) (toks : List Str) {w v : World σ τ} (h : Like Q w v) : Alike Q (execCmd A c toks w) (execCmd A c toks v) := by
  have hd : v.dis = w.dis := by obtain ⟨s, t, hq, rfl⟩ := h; rfl
  have key := fun vals => twin_call hA c vals h
  unfold execCmd
  rw [hd]
  split
  · exact .ok _ h
  · split
    · split
      · exact .ok _ h
      · split
        · exact .error _
        · split
          · split
            · exact .ok _ h
            · exact .ok _ h
            · exact .ok _ h
            · exact .error _
            · rename_i vals _
              have k := key vals
              generalize callHandler A c vals w = p at k
              generalize callHandler A c vals v = q at k
              obtain ⟨w', x⟩ := p; obtain ⟨v', y⟩ := q
              obtain ⟨k1, k2⟩ := k
              cases k2
              match x with
              | none => exact .ok _ k1
              | some (.badCast _) => exact .ok _ k1
              | some (.std _) => exact .ok _ k1
              | some .other => exact .ok _ k1
          · exact .ok _ h
    · split
      · exact .error _
      · split
        · rename_i args _ 
          have k := key (args.map Value.str)
          generalize callHandler A c (args.map Value.str) w = p at k
          generalize callHandler A c (args.map Value.str) v = q at k
          obtain ⟨w', x⟩ := p; obtain ⟨v', y⟩ := q
          obtain ⟨k1, k2⟩ := k
          cases k2
          cases x with
          | none => exact .ok _ k1
          | some e => exact .ok _ k1
        · exact .ok _ h

omit hA in
theorem alike_goOn {w v : World σ τ} (h : Like Q w v) {r r' : Res σ τ} (hr : Alike Q r r') {next next' : World σ τ → Res σ τ}
    (hn : ∀ {w v}, Like Q w v → Alike Q (next w) (next' v)) : Alike Q (goOn w r next) (goOn v r' next') := by
  cases hr with
  | error f => exact .error f
  | @ok w' v' o hl =>
    cases o with
    | found => exact .ok _ hl
    | thrown e => exact .ok _ hl
    | notFound =>
      have h1 : v.gen = w.gen := by obtain ⟨s, t, hq, rfl⟩ := h; rfl
      have h2 : v'.gen = w'.gen := by obtain ⟨s, t, hq, rfl⟩ := hl; rfl
      simp only [goOn, h1, h2]
      split
      · exact hn hl
      · exact .error _

theorem alike_scanEntries (toks : List Str) (sub : MenuInfo → Forest → World σ τ → Res σ τ) (hs : ∀ m k {w v}, Like Q w v → Alike Q (sub m k w) (sub m k v)) :
    ∀ (f : Forest) {w v : World σ τ}, Like Q w v → Alike Q (scanEntries A toks sub f w) (scanEntries A toks sub f v) := by
  intro f
  induction f with
  | nil => intro w v h; exact .ok _ h
  | cmd c rest ih => intro w v h; exact alike_goOn h (alike_execCmd hA c toks h) ih
  | menu m k rest _ ih => intro w v h; exact alike_goOn h (hs m k h) ih

theorem alike_handle (toks : List Str) : ∀ (via : Bool) (path : Path) {w v : World σ τ}, Like Q w v → Alike Q (handleCommand A toks via path w) (handleCommand A toks via path v) := by
  induction toks with
  | nil =>
    intro via path w v h
    have hd : v.dis = w.dis := by obtain ⟨s, t, hq, rfl⟩ := h; rfl
    cases path with
    | nil => unfold handleCommand; exact .ok _ h
    | cons p anc =>
      obtain ⟨m, k⟩ := p
      unfold handleCommand
      rw [hd]
      split
      · exact .ok _ h
      · exact .error _
  | cons t rest ih =>
    intro via path w v h
    have hd : v.dis = w.dis := by obtain ⟨s, t, hq, rfl⟩ := h; rfl
    cases path with
    | nil => unfold handleCommand; exact .ok _ h
    | cons p anc =>
      obtain ⟨m, k⟩ := p
      unfold handleCommand
      rw [hd]
      split
      · exact .ok _ h
      · split
        · split
          · refine .ok _ ?_
            obtain ⟨s, t, hq, rfl⟩ := h
            exact ⟨s, t, hq, rfl⟩
          · refine alike_goOn h (alike_scanEntries hA rest _ ?_ k h) ?_
            · intro m k w v h; exact ih false _ h
            · intro w v h; exact ih true anc h
        · exact .ok _ h

theorem alike_scanCurrent (toks : List Str) {w v : World σ τ} (h : Like Q w v) : Alike Q (scanCurrent A toks w) (scanCurrent A toks v) := by
  have hd : v.dis = w.dis := by obtain ⟨s, t, hq, rfl⟩ := h; rfl
  have ht : v.tree = w.tree := by obtain ⟨s, t, hq, rfl⟩ := h; rfl
  have hc : v.current = w.current := by obtain ⟨s, t, hq, rfl⟩ := h; rfl
  unfold scanCurrent
  rw [ht, hc]
  split
  · exact .error _
  · rename_i path _
    unfold scanCmds
    cases path with
    | nil => exact .ok _ h
    | cons p anc =>
      obtain ⟨m, k⟩ := p
      simp only [hd]
      split
      · exact .ok _ h
      · refine alike_goOn h (alike_scanEntries hA toks _ ?_ k h) ?_
        · intro m k w v h; exact alike_handle hA toks false _ h
        · intro w v h
          split
          · exact .error _
          · exact alike_handle hA toks true anc h

omit hA in
theorem twin_action {f : σ → Effect σ} (hf : ∀ s s', Q s s' → (f s).Same Q (f s')) (ev : Event) {w v : World σ τ} (h : Like Q w v) :
    Twin Q (callAction f ev w) (callAction f ev v) :=
  ⟨like_effect (like_note h ev) (hf w.app v.app h.app), (hf w.app v.app h.app).2.1⟩

omit hA in
theorem twin_optAction {a : Option (σ → Effect σ)} (hf : ∀ f, a = some f → ∀ s s', Q s s' → (f s).Same Q (f s')) (ev : Event) {w v : World σ τ} (h : Like Q w v) :
    Twin Q (optAction a ev w) (optAction a ev v) := by
  cases a with
  | none => exact ⟨h, rfl⟩
  | some f => exact twin_action (hf f rfl) ev h

theorem alike_exit {w v : World σ τ} (h : Like Q w v) : Alike Q (exitSession A w) (exitSession A v) := by
  unfold exitSession
  cases hf : A.exitSession with
  | none => exact .ok _ h
  | some f =>
    simp only
    have k := twin_action (hA.exitSession f hf) .exitSession h
    generalize callAction f .exitSession w = p at k
    generalize callAction f .exitSession v = q at k
    obtain ⟨w', x⟩ := p; obtain ⟨v', y⟩ := q
    obtain ⟨k1, k2⟩ := k
    cases k2
    cases x with
    | some e => exact .ok _ k1
    | none =>
      simp only
      have k := twin_optAction hA.exitGlobal .exitGlobal k1
      simp only at k
      generalize optAction A.exitGlobal .exitGlobal w' = p at k
      generalize optAction A.exitGlobal .exitGlobal v' = q at k
      obtain ⟨w2, x⟩ := p; obtain ⟨v2, y⟩ := q
      obtain ⟨k1, k2⟩ := k
      cases k2
      cases x with
      | some e => exact .ok _ k1
      | none =>
        obtain ⟨s, t, hq, hst⟩ := k1
        simp only at hst hq
        subst hst
        simp only
        split
        · exact .error _
        · rename_i cmds _
          rw [hA.storage t w2.storage cmds]
          split
          · exact .ok _ ⟨s, _, hq, rfl⟩
          · exact .ok _ ⟨s, _, hq, rfl⟩

theorem twin_enter {w v : World σ τ} (h : Like Q w v) : Twin Q (enterSession A w) (enterSession A v) := by
  unfold enterSession
  have k := twin_optAction hA.enterGlobal .enterGlobal h
  generalize optAction A.enterGlobal .enterGlobal w = p at k
  generalize optAction A.enterGlobal .enterGlobal v = q at k
  obtain ⟨w', x⟩ := p; obtain ⟨v', y⟩ := q
  obtain ⟨k1, k2⟩ := k
  cases k2
  cases x with
  | some e => exact ⟨k1, rfl⟩
  | none => exact twin_optAction hA.enterSession .enterSession k1

theorem twin_wrong (line : Str) {w v : World σ τ} (h : Like Q w v) : Twin Q (wrongCommand A line w) (wrongCommand A line v) := by
  unfold wrongCommand
  cases hf : A.onWrong with
  | none => exact ⟨like_put (like_note h _) _, rfl⟩
  | some f => exact ⟨like_effect (like_note h _) (hA.wrong f hf _ _ line h.app), (hA.wrong f hf _ _ line h.app).2.1⟩

theorem twin_report (line : Str) (e : Exn) {w v : World σ τ} (h : Like Q w v) : Twin Q (reportException A line e w) (reportException A line e v) := by
  unfold reportException
  cases hf : A.onException with
  | none => exact ⟨like_put (like_note h _) _, rfl⟩
  | some f => exact ⟨like_effect (like_note h _) (hA.exception f hf _ _ line e h.app), (hA.exception f hf _ _ line e h.app).2.1⟩

theorem alike_catchAll (line : Str) {r r' : Res σ τ} (h : Alike Q r r') : Alike Q (catchAll A line r) (catchAll A line r') := by
  cases h with
  | error f => exact .error f
  | ok o h =>
    match o with
    | .found => exact .ok _ h
    | .notFound => exact .ok _ h
    | .thrown .other => exact .ok _ (like_put (like_note h _) _)
    | .thrown (.std _) => exact (twin_report hA line _ h).alike
    | .thrown (.badCast _) => exact (twin_report hA line _ h).alike

omit hA in
theorem alike_map {α β : Type} {r r' : Except Fault (World σ τ × α)} (h : Alike Q r r') (g : α → β) :
    Alike Q (match r with | .ok (w, x) => .ok (w, g x) | .error f => .error f) (match r' with | .ok (w, x) => .ok (w, g x) | .error f => .error f) := by
  cases h with
  | error f => exact .error f
  | ok o h => exact .ok _ h

theorem alike_scanGlobal (fd : Str → World σ τ → Except Fault (World σ τ × Option Exn)) (hf : ∀ l {w v}, Like Q w v → Alike Q (fd l w) (fd l v)) (toks : List Str)
    {w v : World σ τ} (h : Like Q w v) : Alike Q (scanGlobal A fd toks w) (scanGlobal A fd toks v) := by
  have hh : v.hist = w.hist := by obtain ⟨s, t, hq, rfl⟩ := h; rfl
  unfold scanGlobal
  split
  · exact .error _
  · split
    · obtain ⟨s, t, hq, rfl⟩ := h
      simp only [helpCmd, World.note, bind, Except.bind]
      cases w.tree.locate w.current with
      | none => exact .error _
      | some p => exact .ok _ ⟨s, t, hq, rfl⟩
    · split
      · have k := alike_exit hA (like_note h (.builtin .exit))
        simp only [bind, Except.bind]
        generalize exitSession A (w.note (.builtin .exit)) = p at k
        generalize exitSession A (v.note (.builtin .exit)) = q at k
        cases k with
        | error f => exact .error f
        | ok o h => exact .ok _ h
      · split
        · rw [hh]
          split
          · exact .ok _ (like_put (like_note h _) _)
          · exact .ok _ (like_note h _)
        · exact .ok _ h
  · split
    · split
      · exact .ok _ h
      · exact .ok _ h
      · exact .error _
      · rename_i n _
        simp only [bind, Except.bind, World.note, hh]
        split
        · exact .error _
        · rename_i hx _
          cases History.at hx n with
          | error f => exact .error f
          | ok r => cases r with
            | none => exact .ok _ (like_hist (like_note h _) _)
            | some cmd =>
              have k := hf cmd (like_hist (like_note h (.builtin (.bang n))) hx)
              simp only [World.note] at k ⊢
              revert k
              generalize fd cmd _ = p
              generalize fd cmd _ = q
              intro k
              cases k with
              | error f => exact .error f
              | ok o h => exact .ok _ h
    · exact .ok _ h
  · exact .ok _ h

/-- Feeding the same line has the same visible effect. -/
theorem alike_feed (fuel : Nat) : ∀ (line : Str) {w v : World σ τ}, Like Q w v → Alike Q (feed A fuel line w) (feed A fuel line v) := by
  induction fuel with
  | zero => intro line w v h; exact .error _
  | succ fuel ih =>
    intro line w v h
    have hh : v.hist = w.hist := by obtain ⟨s, t, hq, rfl⟩ := h; rfl
    unfold feed
    simp only [bind, Except.bind, hh]
    split
    · exact .error _
    · rename_i strs _
      split
      · exact .ok _ h
      · split
        · exact .error _
        · rename_i hx _
          refine alike_catchAll hA line ?_
          have k := alike_scanGlobal hA (feed A fuel) ih strs (like_hist h hx)
          revert k
          generalize scanGlobal A (feed A fuel) strs _ = p
          generalize scanGlobal A (feed A fuel) strs _ = q
          intro k
          cases k with
          | error f => exact .error f
          | @ok w v o h =>
            cases o with
            | found => exact .ok _ h
            | thrown e => exact .ok _ h
            | notFound =>
              simp only
              have k := alike_scanCurrent hA strs h
              revert k
              generalize scanCurrent A strs w = p
              generalize scanCurrent A strs v = q
              intro k
              cases k with
              | error f => exact .error f
              | @ok w v o h =>
                cases o with
                | found => exact .ok _ h
                | thrown e => exact .ok _ h
                | notFound =>
                  simp only
                  have k := twin_wrong hA line h
                  generalize wrongCommand A line w = p at k
                  generalize wrongCommand A line v = q at k
                  obtain ⟨w', x⟩ := p; obtain ⟨v', y⟩ := q
                  obtain ⟨k1, k2⟩ := k
                  cases k2
                  cases x with
                  | none => exact .ok _ k1
                  | some e => exact .ok _ k1

open Sessions in
/-- So has every operation. -/
theorem like_work (op : Op) {w v : World σ τ} (h : Like Q w v) :
    (∃ f, work A op w = .error f ∧ work A op v = .error f) ∨ ∃ w' v', work A op w = .ok w' ∧ work A op v = .ok v' ∧ Like Q w' v' := by
  have hh : v.hist = w.hist := by obtain ⟨s, t, hq, rfl⟩ := h; rfl
  cases op with
  | create i n t => exact .inr ⟨w, v, rfl, rfl, h⟩
  | destroy i => exact .inr ⟨w, v, rfl, rfl, h⟩
  | feed i fuel line =>
    have k := alike_feed hA fuel line h
    simp only [work]
    generalize feed A fuel line w = p at k
    generalize feed A fuel line v = q at k
    cases k with
    | error f => exact .inl ⟨f, rfl, rfl⟩
    | ok o h => exact .inr ⟨_, _, rfl, rfl, h⟩
  | prompt i =>
    obtain ⟨s, t, hq, rfl⟩ := h
    simp only [work, prompt]
    split
    · exact .inr ⟨_, _, rfl, rfl, s, t, hq, rfl⟩
    · split
      · exact .inr ⟨_, _, rfl, rfl, s, t, hq, rfl⟩
      · exact .inl ⟨_, rfl, rfl⟩
  | enter i => exact .inr ⟨_, _, rfl, rfl, (twin_enter hA h).1⟩
  | exit i =>
    have k := alike_exit hA h
    simp only [work]
    generalize exitSession A w = p at k
    generalize exitSession A v = q at k
    cases k with
    | error f => exact .inl ⟨f, rfl, rfl⟩
    | ok o h => exact .inr ⟨_, _, rfl, rfl, h⟩
  | up i s =>
    simp only [work, hh]
    split
    · exact .inr ⟨_, _, rfl, rfl, like_hist h _⟩
    · exact .inl ⟨_, rfl, rfl⟩
  | down i =>
    simp only [work, hh]
    split
    · exact .inr ⟨_, _, rfl, rfl, like_hist h _⟩
    · exact .inl ⟨_, rfl, rfl⟩
  | act i a => exact .inr ⟨_, _, rfl, rfl, like_act h a⟩

end Verif
