import Verif.Model.Processor

set_option linter.unusedSimpArgs false

/-!
# Sessions of two applications that do the same
-/

namespace Verif.Transfer
open FromString (Value)

variable {σ σ' τ : Type}

/-- How the states of two applications (depending on what has been done in the session, and on whether it has been left) and what two sessions have written are related. -/
structure Rel (σ σ' : Type) where
  app : List Event → Bool → σ → σ' → Prop
  later : ∀ log ex e s s', app log ex s s' → app (log ++ [e]) ex s s'
  out : Str → Str → Prop
  /-- writing the same does not change it -/
  more : ∀ a b s, out a b → out (a ++ s) (b ++ s)
  /-- when it is known that leaving does the same -/
  free : List Event → Bool → Prop
  builtin : ∀ log ex b, free log ex → free (log ++ [.builtin b]) ex

/-- Two effects that look the same and leave related states. -/
def Same (Q : Rel σ σ') (log : List Event) (ex : Bool) (e : Effect σ) (e' : Effect σ') : Prop := e.acts = e'.acts ∧ e.exn = e'.exn ∧ Q.app log ex e.app e'.app

/-- Both or neither are set, and they are related. -/
def Both {α β : Type} (R : α → β → Prop) : Option α → Option β → Prop
  | none, none => True
  | some a, some b => R a b
  | _, _ => False

/-- Two actions do the same after the event has been noted. -/
def Acts (Q : Rel σ σ') (ev : Event) (f : σ → Effect σ) (g : σ' → Effect σ') : Prop := ∀ log ex s s', ev ∈ log → Q.app log ex s s' → Same Q log ex (f s) (g s')

/-- The same, with another relation of the states if there is no exception. -/
def Turns (Q L R : Rel σ σ') (ev : Event) (f : σ → Effect σ) (g : σ' → Effect σ') : Prop :=
  ∀ log ex s s', Q.free log ex → Q.app log ex s s' → ((f s).exn = none → Same L (log ++ [ev]) ex (f s) (g s')) ∧ ((f s).exn ≠ none → Same R (log ++ [ev]) ex (f s) (g s'))

/-- Two applications whose functions do the same in related states, and leave related states; `L` relates the states when the exit action of the session has been executed. -/
structure Sim (A : App σ τ) (B : App σ' τ) (Q L : Rel σ σ') : Prop where
  plat : B.plat = A.plat
  handler : ∀ log ex f s s' v, Q.app log ex s s' → Same Q log ex (A.handler f s v) (B.handler f s' v)
  exception : Both (fun f g => ∀ log ex s s' l e, Q.app log ex s s' → Same Q log ex (f s l e) (g s' l e)) A.onException B.onException
  wrong : Both (fun f g => ∀ log ex s s' l, Q.app log ex s s' → Same Q log ex (f s l) (g s' l)) A.onWrong B.onWrong
  exitSession : Both (Turns Q L Q .exitSession) A.exitSession B.exitSession
  exitGlobal : Both (Turns L L Q .exitGlobal) A.exitGlobal B.exitGlobal
  enterSession : Both (Acts Q .enterSession) A.enterSession B.enterSession
  enterGlobal : Both (Acts Q .enterGlobal) A.enterGlobal B.enterGlobal
  store : B.store = A.store
  storeFails : B.storeFails = A.storeFails
  out : L.out = Q.out
  always : ∀ log ex, L.free log ex
  done : ∀ log ex s s', L.app log ex s s' → Q.app log true s s'
  fails : ∀ t cmds, A.storeFails t cmds ≠ none → ∀ log ex s s', L.app log ex s s' → Q.app log ex s s'

/-- The same but for the state of the application and for what has been written. -/
def World.as (w : World σ τ) (s : σ') (o : Str) : World σ' τ := ⟨s, w.tree, w.dis, w.used, w.gen, w.storage, ⟨w.io.style, o⟩, w.casts, w.hist, w.current, w.exit, w.log⟩

/-- The states differ at most in the application's state and in what has been written, which are related. -/
def Like (Q : Rel σ σ') (w : World σ τ) (v : World σ' τ) : Prop := ∃ s o, Q.app w.log w.exit w.app s ∧ Q.out w.io.out o ∧ v = World.as w s o

variable {Q : Rel σ σ'}

theorem Like.app {w : World σ τ} {v : World σ' τ} (h : Like Q w v) : Q.app w.log w.exit w.app v.app := by
  obtain ⟨s, o, hq, _, rfl⟩ := h; exact hq

theorem Like.out {w : World σ τ} {v : World σ' τ} (h : Like Q w v) : Q.out w.io.out v.io.out := by
  obtain ⟨s, o, _, ho, rfl⟩ := h; exact ho

theorem like_put {w : World σ τ} {v : World σ' τ} (h : Like Q w v) (s : Str) : Like Q (w.put s) (v.put s) := by
  obtain ⟨s, o, hq, ho, rfl⟩ := h; exact ⟨s, _, hq, Q.more _ _ _ ho, rfl⟩

theorem like_act {w : World σ τ} {v : World σ' τ} (h : Like Q w v) (a : Act) : Like Q (w.act a) (v.act a) := by
  cases a with
  | out t => exact like_put h t
  | cout t => obtain ⟨s, o, hq, ho, rfl⟩ := h; exact ⟨s, _, hq, Q.more _ _ _ ho, rfl⟩
  | color on => obtain ⟨s, o, hq, ho, rfl⟩ := h; exact ⟨s, o, hq, ho, rfl⟩
  | enable id =>
    obtain ⟨s, o, hq, ho, rfl⟩ := h
    simp only [World.act]
    by_cases hc : id ∈ w.tree.ids
    · rw [if_pos hc, if_pos (show id ∈ (World.as w s o).tree.ids from hc)]; exact ⟨s, o, hq, ho, rfl⟩
    · rw [if_neg hc, if_neg (show ¬ id ∈ (World.as w s o).tree.ids from hc)]; exact ⟨s, o, hq, ho, rfl⟩
  | disable id =>
    obtain ⟨s, o, hq, ho, rfl⟩ := h
    simp only [World.act]
    by_cases hc : id ∈ w.tree.ids
    · rw [if_pos hc, if_pos (show id ∈ (World.as w s o).tree.ids from hc)]; exact ⟨s, o, hq, ho, rfl⟩
    · rw [if_neg hc, if_neg (show ¬ id ∈ (World.as w s o).tree.ids from hc)]; exact ⟨s, o, hq, ho, rfl⟩
  | remove id =>
    obtain ⟨s, o, hq, ho, rfl⟩ := h
    simp only [World.act]
    by_cases hc : id ∈ w.tree.kids.ids
    · rw [if_pos hc, if_pos (show id ∈ (World.as w s o).tree.kids.ids from hc)]; exact ⟨s, o, hq, ho, rfl⟩
    · rw [if_neg hc, if_neg (show ¬ id ∈ (World.as w s o).tree.kids.ids from hc)]; exact ⟨s, o, hq, ho, rfl⟩
  | insert p e =>
    obtain ⟨s, o, hq, ho, rfl⟩ := h
    simp only [World.act]
    by_cases hc : p ∈ w.tree.menuIds ∧ e.ids.Nodup ∧ ∀ i ∈ e.ids, i ∉ w.used
    · rw [if_pos hc, if_pos (show p ∈ (World.as w s o).tree.menuIds ∧ e.ids.Nodup ∧ ∀ i ∈ e.ids, i ∉ (World.as w s o).used from hc)]; exact ⟨s, o, hq, ho, rfl⟩
    · rw [if_neg hc, if_neg (show ¬ (p ∈ (World.as w s o).tree.menuIds ∧ e.ids.Nodup ∧ ∀ i ∈ e.ids, i ∉ (World.as w s o).used) from hc)]; exact ⟨s, o, hq, ho, rfl⟩

theorem like_acts (as : List Act) : ∀ {w : World σ τ} {v : World σ' τ}, Like Q w v → Like Q (as.foldl World.act w) (as.foldl World.act v) := by
  induction as with
  | nil => intro w v h; exact h
  | cons a as ih => intro w v h; exact ih (like_act h a)

theorem like_effect {w : World σ τ} {v : World σ' τ} (h : Like Q w v) {e : Effect σ} {e' : Effect σ'} (he : Same Q w.log w.exit e e') : Like Q (w.effect e) (v.effect e') := by
  obtain ⟨s, o, hq, ho, rfl⟩ := h
  unfold World.effect
  rw [he.1]
  exact like_acts _ ⟨e'.app, o, he.2.2, ho, rfl⟩

theorem like_note {w : World σ τ} {v : World σ' τ} (h : Like Q w v) (e : Event) : Like Q (w.note e) (v.note e) := by
  obtain ⟨s, o, hq, ho, rfl⟩ := h; exact ⟨s, o, Q.later _ _ _ _ _ hq, ho, rfl⟩

theorem like_hist {w : World σ τ} {v : World σ' τ} (h : Like Q w v) (x : History.History) : Like Q { w with hist := x } { v with hist := x } := by
  obtain ⟨s, o, hq, ho, rfl⟩ := h; exact ⟨s, o, hq, ho, rfl⟩

/-- Results that differ at most in the same way. -/
inductive Alike (Q : Rel σ σ') {α : Type} : Except Fault (World σ τ × α) → Except Fault (World σ' τ × α) → Prop
  | error (f) : Alike Q (.error f) (.error f)
  | ok {w v} (o : α) : Like Q w v → Alike Q (.ok (w, o)) (.ok (v, o))

/-- The same for results that are no faults. -/
def Twin (Q : Rel σ σ') {α : Type} (p : World σ τ × α) (q : World σ' τ × α) : Prop := Like Q p.1 q.1 ∧ p.2 = q.2

theorem Twin.alike {α : Type} {p : World σ τ × α} {q : World σ' τ × α} (h : Twin Q p q) : Alike Q (.ok p) (.ok q) := by
  obtain ⟨w, o⟩ := p; obtain ⟨v, o'⟩ := q
  obtain ⟨h1, h2⟩ := h
  cases h2
  exact .ok _ h1

variable {A : App σ τ} {B : App σ' τ} {L : Rel σ σ'} (hA : Sim A B Q L)
include hA

theorem twin_call (c : Cmd) (vals : List Value) {w : World σ τ} {v : World σ' τ} (h : Like Q w v) : Twin Q (callHandler A c vals w) (callHandler B c vals v) := by
  have hb := hA.handler w.log w.exit c.fn w.app v.app vals h.app
  refine ⟨?_, hb.2.1⟩
  have hs : w.snap = v.snap := by obtain ⟨s, o, hq, ho, rfl⟩ := h; rfl
  simp only [callHandler, hb.2.1, hs]
  exact like_note (like_effect h hb) _

theorem alike_execCmd (c : Cmd) (toks : List Str) {w : World σ τ} {v : World σ' τ} (h : Like Q w v) : Alike Q (execCmd A c toks w) (execCmd B c toks v) := by
  have hd : v.dis = w.dis := by obtain ⟨s, o, hq, ho, rfl⟩ := h; rfl
  have key := fun vals => twin_call hA c vals h
  unfold execCmd
  rw [hd, hA.plat]
  split
  · exact .ok _ h
  · split
    · split
      · exact .ok _ h
      · split
        · exact .error _
        · split
          · split
            · exact .ok _ h
            · exact .ok _ h
            · exact .ok _ h
            · exact .error _
            · rename_i vals _
              have k := key vals
              generalize callHandler A c vals w = p at k
              generalize callHandler B c vals v = q at k
              obtain ⟨w', x⟩ := p; obtain ⟨v', y⟩ := q
              obtain ⟨k1, k2⟩ := k
              cases k2
              match x with
              | none => exact .ok _ k1
              | some (.badCast _) => exact .ok _ k1
              | some (.std _) => exact .ok _ k1
              | some .other => exact .ok _ k1
          · exact .ok _ h
    · split
      · exact .error _
      · split
        · rename_i args _ 
          have k := key (args.map Value.str)
          generalize callHandler A c (args.map Value.str) w = p at k
          generalize callHandler B c (args.map Value.str) v = q at k
          obtain ⟨w', x⟩ := p; obtain ⟨v', y⟩ := q
          obtain ⟨k1, k2⟩ := k
          cases k2
          cases x with
          | none => exact .ok _ k1
          | some e => exact .ok _ k1
        · exact .ok _ h

omit hA in
theorem alike_goOn {w : World σ τ} {v : World σ' τ} (h : Like Q w v) {r : Res σ τ} {r' : Res σ' τ} (hr : Alike Q r r') {next : World σ τ → Res σ τ} {next' : World σ' τ → Res σ' τ}
    (hn : ∀ {w : World σ τ} {v : World σ' τ}, Like Q w v → Alike Q (next w) (next' v)) : Alike Q (goOn w r next) (goOn v r' next') := by
  cases hr with
  | error f => exact .error f
  | @ok w' v' o hl =>
    cases o with
    | found => exact .ok _ hl
    | thrown e => exact .ok _ hl
    | notFound =>
      have h1 : v.gen = w.gen := by obtain ⟨s, o, hq, ho, rfl⟩ := h; rfl
      have h2 : v'.gen = w'.gen := by obtain ⟨s, o, hq, ho, rfl⟩ := hl; rfl
      simp only [goOn, h1, h2]
      split
      · exact hn hl
      · exact .error _

theorem alike_scanEntries (toks : List Str) (sub : MenuInfo → Forest → World σ τ → Res σ τ) (sub' : MenuInfo → Forest → World σ' τ → Res σ' τ) (hs : ∀ m k {w : World σ τ} {v : World σ' τ}, Like Q w v → Alike Q (sub m k w) (sub' m k v)) :
    ∀ (f : Forest) {w : World σ τ} {v : World σ' τ}, Like Q w v → Alike Q (scanEntries A toks sub f w) (scanEntries B toks sub' f v) := by
  intro f
  induction f with
  | nil => intro w v h; exact .ok _ h
  | cmd c rest ih => intro w v h; exact alike_goOn h (alike_execCmd hA c toks h) ih
  | menu m k rest _ ih => intro w v h; exact alike_goOn h (hs m k h) ih

theorem alike_handle (toks : List Str) : ∀ (via : Bool) (path : Path) {w : World σ τ} {v : World σ' τ}, Like Q w v → Alike Q (handleCommand A toks via path w) (handleCommand B toks via path v) := by
  induction toks with
  | nil =>
    intro via path w v h
    have hd : v.dis = w.dis := by obtain ⟨s, o, hq, ho, rfl⟩ := h; rfl
    cases path with
    | nil => unfold handleCommand; exact .ok _ h
    | cons p anc =>
      obtain ⟨m, k⟩ := p
      unfold handleCommand
      rw [hd]
      split
      · exact .ok _ h
      · exact .error _
  | cons t rest ih =>
    intro via path w v h
    have hd : v.dis = w.dis := by obtain ⟨s, o, hq, ho, rfl⟩ := h; rfl
    cases path with
    | nil => unfold handleCommand; exact .ok _ h
    | cons p anc =>
      obtain ⟨m, k⟩ := p
      unfold handleCommand
      rw [hd]
      split
      · exact .ok _ h
      · split
        · split
          · refine .ok _ ?_
            obtain ⟨s, o, hq, ho, rfl⟩ := h
            exact ⟨s, o, hq, ho, rfl⟩
          · refine alike_goOn h (alike_scanEntries hA rest _ _ ?_ k h) ?_
            · intro m k w v h; exact ih false _ h
            · intro w v h; exact ih true anc h
        · exact .ok _ h

theorem alike_scanCurrent (toks : List Str) {w : World σ τ} {v : World σ' τ} (h : Like Q w v) : Alike Q (scanCurrent A toks w) (scanCurrent B toks v) := by
  have hd : v.dis = w.dis := by obtain ⟨s, o, hq, ho, rfl⟩ := h; rfl
  have ht : v.tree = w.tree := by obtain ⟨s, o, hq, ho, rfl⟩ := h; rfl
  have hc : v.current = w.current := by obtain ⟨s, o, hq, ho, rfl⟩ := h; rfl
  unfold scanCurrent
  rw [ht, hc]
  split
  · exact .error _
  · rename_i path _
    unfold scanCmds
    cases path with
    | nil => exact .ok _ h
    | cons p anc =>
      obtain ⟨m, k⟩ := p
      simp only [hd]
      split
      · exact .ok _ h
      · refine alike_goOn h (alike_scanEntries hA toks _ _ ?_ k h) ?_
        · intro m k w v h; exact alike_handle hA toks false _ h
        · intro w v h
          split
          · exact .error _
          · exact alike_handle hA toks true anc h

omit hA in
theorem twin_action {f : σ → Effect σ} {g : σ' → Effect σ'} {ev : Event} (hf : Acts Q ev f g) {w : World σ τ} {v : World σ' τ} (h : Like Q w v) :
    Twin Q (callAction f ev w) (callAction g ev v) :=
  have k := hf (w.note ev).log w.exit w.app v.app (by simp [World.note]) (like_note h ev).app
  ⟨like_effect (like_note h ev) k, k.2.1⟩

omit hA in
theorem twin_optAction {a : Option (σ → Effect σ)} {b : Option (σ' → Effect σ')} {ev : Event} (hf : Both (Acts Q ev) a b) {w : World σ τ} {v : World σ' τ} (h : Like Q w v) :
    Twin Q (optAction a ev w) (optAction b ev v) := by
  cases a with
  | none =>
    cases b with
    | none => exact ⟨h, rfl⟩
    | some g => exact hf.elim
  | some f =>
    cases b with
    | none => exact hf.elim
    | some g => exact twin_action hf h

omit hA in
theorem turns_action {L R : Rel σ σ'} (hL : L.out = Q.out) (hR : R.out = Q.out) {f : σ → Effect σ} {g : σ' → Effect σ'} {ev : Event} (hf : Turns Q L R ev f g) {w : World σ τ} {v : World σ' τ} (hx : Q.free w.log w.exit) (h : Like Q w v) :
    ((callAction f ev w).2 = none ∧ Twin L (callAction f ev w) (callAction g ev v)) ∨ ((callAction f ev w).2 ≠ none ∧ Twin R (callAction f ev w) (callAction g ev v)) := by
  have k := hf w.log w.exit w.app v.app hx h.app
  have go : ∀ P : Rel σ σ', P.out = Q.out → Same P (w.note ev).log w.exit (f w.app) (g v.app) → Twin P (callAction f ev w) (callAction g ev v) := by
    intro P hP hs
    refine ⟨?_, hs.2.1⟩
    obtain ⟨s, o, hq, ho, rfl⟩ := h
    simp only [callAction, World.effect]
    rw [hs.1]
    exact like_acts _ ⟨(g s).app, o, hs.2.2, by rw [hP]; exact ho, rfl⟩
  cases hx : (f w.app).exn with
  | none => exact .inl ⟨hx, go L hL (k.1 hx)⟩
  | some e => exact .inr ⟨by rw [show (callAction f ev w).2 = (f w.app).exn from rfl, hx]; simp, go R hR (k.2 (by rw [hx]; simp))⟩

theorem alike_exit {w : World σ τ} {v : World σ' τ} (hx : Q.free w.log w.exit) (h : Like Q w v) : Alike Q (exitSession A w) (exitSession B v) := by
  have he := hA.exitSession
  unfold exitSession
  revert he
  rcases hf : A.exitSession with _ | f <;> rcases hg : B.exitSession with _ | g <;> intro he
  · exact .ok _ h
  · exact he.elim
  · exact he.elim
  · simp only
    have k := turns_action hA.out rfl he hx h
    generalize callAction f .exitSession w = p at k
    generalize callAction g .exitSession v = q at k
    obtain ⟨w', x⟩ := p; obtain ⟨v', y⟩ := q
    rcases k with ⟨k0, k1, k2⟩ | ⟨k0, k1, k2⟩
    case inr =>
      cases k2
      cases x with
      | some e => exact .ok _ k1
      | none => exact absurd rfl k0
    case inl =>
      cases k2
      cases k0
      simp only
      have k : ((optAction A.exitGlobal .exitGlobal w').2 = none ∧ Twin L (optAction A.exitGlobal .exitGlobal w') (optAction B.exitGlobal .exitGlobal v')) ∨
          ((optAction A.exitGlobal .exitGlobal w').2 ≠ none ∧ Twin Q (optAction A.exitGlobal .exitGlobal w') (optAction B.exitGlobal .exitGlobal v')) := by
        have he := hA.exitGlobal
        revert he
        rcases A.exitGlobal with _ | f <;> rcases B.exitGlobal with _ | g <;> intro he
        · exact .inl ⟨rfl, k1, rfl⟩
        · exact he.elim
        · exact he.elim
        · exact turns_action (Q := L) rfl hA.out.symm he (hA.always _ _) k1
      generalize optAction A.exitGlobal .exitGlobal w' = p at k
      generalize optAction B.exitGlobal .exitGlobal v' = q at k
      obtain ⟨w2, x⟩ := p; obtain ⟨v2, y⟩ := q
      rcases k with ⟨k0, k1, k2⟩ | ⟨k0, k1, k2⟩
      case inr =>
        cases k2
        cases x with
        | some e => exact .ok _ k1
        | none => exact absurd rfl k0
      case inl =>
        cases k2
        cases k0
        obtain ⟨s, o, hq, ho, hst⟩ := k1
        simp only at hst hq
        subst hst
        simp only [World.as, hA.store, hA.storeFails]
        rw [hA.out] at ho
        split
        · exact .error _
        · rename_i cmds _
          split
          · rename_i e hs
            exact .ok _ ⟨s, o, hA.fails _ _ (by rw [hs]; simp) _ _ _ _ hq, ho, rfl⟩
          · exact .ok _ ⟨s, o, hA.done _ w2.exit _ _ (L.later _ _ _ _ _ hq), ho, rfl⟩

theorem twin_enter {w : World σ τ} {v : World σ' τ} (h : Like Q w v) : Twin Q (enterSession A w) (enterSession B v) := by
  unfold enterSession
  have k := twin_optAction hA.enterGlobal h
  generalize optAction A.enterGlobal .enterGlobal w = p at k
  generalize optAction B.enterGlobal .enterGlobal v = q at k
  obtain ⟨w', x⟩ := p; obtain ⟨v', y⟩ := q
  obtain ⟨k1, k2⟩ := k
  cases k2
  cases x with
  | some e => exact ⟨k1, rfl⟩
  | none => exact twin_optAction hA.enterSession k1

theorem twin_wrong (line : Str) {w : World σ τ} {v : World σ' τ} (h : Like Q w v) : Twin Q (wrongCommand A line w) (wrongCommand B line v) := by
  have he := hA.wrong
  unfold wrongCommand
  revert he
  rcases A.onWrong with _ | f <;> rcases B.onWrong with _ | g <;> intro he
  · exact ⟨like_put (like_note h _) _, rfl⟩
  · exact he.elim
  · exact he.elim
  · exact ⟨like_effect (like_note h _) (he _ _ _ _ line (like_note h _).app), (he _ _ _ _ line (like_note h _).app).2.1⟩

theorem twin_report (line : Str) (e : Exn) {w : World σ τ} {v : World σ' τ} (h : Like Q w v) : Twin Q (reportException A line e w) (reportException B line e v) := by
  have he := hA.exception
  unfold reportException
  revert he
  rcases A.onException with _ | f <;> rcases B.onException with _ | g <;> intro he
  · exact ⟨like_put (like_note h _) _, rfl⟩
  · exact he.elim
  · exact he.elim
  · exact ⟨like_effect (like_note h _) (he _ _ _ _ line e (like_note h _).app), (he _ _ _ _ line e (like_note h _).app).2.1⟩

theorem alike_catchAll (line : Str) {r : Res σ τ} {r' : Res σ' τ} (h : Alike Q r r') : Alike Q (catchAll A line r) (catchAll B line r') := by
  cases h with
  | error f => exact .error f
  | ok o h =>
    match o with
    | .found => exact .ok _ h
    | .notFound => exact .ok _ h
    | .thrown .other => exact .ok _ (like_put (like_note h _) _)
    | .thrown (.std _) => exact (twin_report hA line _ h).alike
    | .thrown (.badCast _) => exact (twin_report hA line _ h).alike

omit hA in
theorem alike_map {α β : Type} {r : Except Fault (World σ τ × α)} {r' : Except Fault (World σ' τ × α)} (h : Alike Q r r') (g : α → β) :
    Alike Q (match r with | .ok (w, x) => .ok (w, g x) | .error f => .error f) (match r' with | .ok (w, x) => .ok (w, g x) | .error f => .error f) := by
  cases h with
  | error f => exact .error f
  | ok o h => exact .ok _ h

theorem alike_scanGlobal (fd : Str → World σ τ → Except Fault (World σ τ × Option Exn)) (fd' : Str → World σ' τ → Except Fault (World σ' τ × Option Exn)) (hf : ∀ l {w : World σ τ} {v : World σ' τ}, Q.free w.log w.exit → Like Q w v → Alike Q (fd l w) (fd' l v)) (toks : List Str)
    {w : World σ τ} {v : World σ' τ} (hx : Q.free w.log w.exit) (h : Like Q w v) : Alike Q (scanGlobal A fd toks w) (scanGlobal B fd' toks v) := by
  have hh : v.hist = w.hist := by obtain ⟨s, o, hq, ho, rfl⟩ := h; rfl
  unfold scanGlobal
  rw [hA.plat]
  split
  · exact .error _
  · split
    · obtain ⟨s, o, hq, ho, rfl⟩ := h
      simp only [helpCmd, World.note, World.as, bind, Except.bind]
      cases w.tree.locate w.current with
      | none => exact .error _
      | some p => exact .ok _ ⟨s, _, Q.later _ _ _ _ _ hq, Q.more _ _ _ ho, rfl⟩
    · split
      · have k := alike_exit hA (Q.builtin _ _ .exit hx) (like_note h (.builtin .exit))
        simp only [bind, Except.bind]
        generalize exitSession A (w.note (.builtin .exit)) = p at k
        generalize exitSession B (v.note (.builtin .exit)) = q at k
        cases k with
        | error f => exact .error f
        | ok o h => exact .ok _ h
      · split
        · rw [hh]
          split
          · exact .ok _ (like_put (like_note h _) _)
          · exact .ok _ (like_note h _)
        · exact .ok _ h
  · split
    · split
      · exact .ok _ h
      · exact .ok _ h
      · exact .error _
      · rename_i n _
        simp only [bind, Except.bind, World.note, hh]
        split
        · exact .error _
        · rename_i hy _
          cases History.at hy n with
          | error f => exact .error f
          | ok r => cases r with
            | none => exact .ok _ (like_hist (like_note h _) _)
            | some cmd =>
              have k := hf cmd (Q.builtin _ _ (.bang n) hx) (like_hist (like_note h (.builtin (.bang n))) hy)
              simp only [World.note] at k ⊢
              revert k
              generalize fd cmd _ = p
              generalize fd' cmd _ = q
              intro k
              cases k with
              | error f => exact .error f
              | ok o h => exact .ok _ h
    · exact .ok _ h
  · exact .ok _ h

/-- Feeding the same line has the same visible effect. -/
theorem alike_feed (fuel : Nat) : ∀ (line : Str) {w : World σ τ} {v : World σ' τ}, Q.free w.log w.exit → Like Q w v → Alike Q (feed A fuel line w) (feed B fuel line v) := by
  induction fuel with
  | zero => intro line w v hf h; exact .error _
  | succ fuel ih =>
    intro line w v hf h
    have hh : v.hist = w.hist := by obtain ⟨s, o, hq, ho, rfl⟩ := h; rfl
    unfold feed
    simp only [bind, Except.bind, hh]
    split
    · exact .error _
    · rename_i strs _
      split
      · exact .ok _ h
      · split
        · exact .error _
        · rename_i hx _
          refine alike_catchAll hA line ?_
          have k := alike_scanGlobal (w := { w with hist := hx }) hA (feed A fuel) (feed B fuel) ih strs hf (like_hist h hx)
          revert k
          generalize scanGlobal A (feed A fuel) strs _ = p
          generalize scanGlobal B (feed B fuel) strs _ = q
          intro k
          cases k with
          | error f => exact .error f
          | @ok w v o h =>
            cases o with
            | found => exact .ok _ h
            | thrown e => exact .ok _ h
            | notFound =>
              simp only
              have k := alike_scanCurrent hA strs h
              revert k
              generalize scanCurrent A strs w = p
              generalize scanCurrent B strs v = q
              intro k
              cases k with
              | error f => exact .error f
              | @ok w v o h =>
                cases o with
                | found => exact .ok _ h
                | thrown e => exact .ok _ h
                | notFound =>
                  simp only
                  have k := twin_wrong hA line h
                  generalize wrongCommand A line w = p at k
                  generalize wrongCommand B line v = q at k
                  obtain ⟨w', x⟩ := p; obtain ⟨v', y⟩ := q
                  obtain ⟨k1, k2⟩ := k
                  cases k2
                  cases x with
                  | none => exact .ok _ k1
                  | some e => exact .ok _ k1


end Verif.Transfer
