import Verif.Model.Processor

set_option linter.unusedSimpArgs false

/-!
# Sessions whose output streams differ

Whatever is written to the stream of a session, what the session does is the same.
-/

namespace Verif
open FromString (Value)

variable {σ τ : Type} (R : Io → Io → Prop)

/-- Without the calls of `SetColor` and `SetNoColor`. -/
def Effect.mute (e : Effect σ) : Effect σ := { e with acts := e.acts.filter (fun a => match a with | .color _ => false | _ => true) }

/-- The same application without calls of `SetColor` and `SetNoColor`. -/
def App.mute (A : App σ τ) : App σ τ :=
  { A with
    handler := fun f s v => (A.handler f s v).mute
    onException := A.onException.map (fun f s l e => (f s l e).mute)
    onWrong := A.onWrong.map (fun f s l => (f s l).mute)
    enterGlobal := A.enterGlobal.map (fun f s => (f s).mute)
    exitGlobal := A.exitGlobal.map (fun f s => (f s).mute)
    enterSession := A.enterSession.map (fun f s => (f s).mute)
    exitSession := A.exitSession.map (fun f s => (f s).mute) }

/-- The relation is preserved by writing text, and by the colour setting of the second stream. -/
structure Keeps : Prop where
  put : ∀ {a b : Io} (s : Str), R a b → R (a.put s) (b.put s)
  color : ∀ {a b : Io} (on : Bool), R a b → R a { b with style := { b.style with color := on } }

/-- The states differ at most in the streams, which are related. -/
def Hue (w v : World σ τ) : Prop := ∃ io, R w.io io ∧ v = { w with io := io }

/-- Results that differ at most in the same way. -/
inductive Dyed {α : Type} : Except Fault (World σ τ × α) → Except Fault (World σ τ × α) → Prop
  | error (f) : Dyed (.error f) (.error f)
  | ok {w v} (o : α) : Hue R w v → Dyed (.ok (w, o)) (.ok (v, o))

/-- The same for results that are no faults. -/
def Pair {α : Type} (p q : World σ τ × α) : Prop := Hue R p.1 q.1 ∧ p.2 = q.2

variable {R}

theorem Pair.dyed {α : Type} {p q : World σ τ × α} (h : Pair R p q) : Dyed R (.ok p) (.ok q) := by
  obtain ⟨w, o⟩ := p; obtain ⟨v, o'⟩ := q
  obtain ⟨h1, h2⟩ := h
  cases h2
  exact .ok _ h1

theorem hue_note {w v : World σ τ} (h : Hue R w v) (e : Event) : Hue R (w.note e) (v.note e) := by
  obtain ⟨io, hr, rfl⟩ := h; exact ⟨io, hr, rfl⟩

theorem hue_hist {w v : World σ τ} (h : Hue R w v) (x : History.History) : Hue R { w with hist := x } { v with hist := x } := by
  obtain ⟨io, hr, rfl⟩ := h; exact ⟨io, hr, rfl⟩

variable (hA : Keeps R) (A : App σ τ)
include hA

theorem hue_put {w v : World σ τ} (h : Hue R w v) (s : Str) : Hue R (w.put s) (v.put s) := by
  obtain ⟨io, hr, rfl⟩ := h; exact ⟨_, hA.put s hr, rfl⟩

theorem hue_act {w v : World σ τ} (h : Hue R w v) (a : Act) : Hue R (if (match a with | .color _ => false | _ => true) = true then w.act a else w) (v.act a) := by
  obtain ⟨io, hr, rfl⟩ := h
  cases a <;> simp only [World.act, if_true, Bool.false_eq_true, if_false]
  · exact ⟨_, hA.put _ hr, rfl⟩
  · exact ⟨_, hA.put _ hr, rfl⟩
  · split <;> exact ⟨io, hr, rfl⟩
  · split <;> exact ⟨io, hr, rfl⟩
  · split <;> exact ⟨io, hr, rfl⟩
  · split <;> exact ⟨io, hr, rfl⟩
  · exact ⟨_, hA.color _ hr, rfl⟩

theorem hue_effect {w v : World σ τ} (h : Hue R w v) (e : Effect σ) : Hue R (w.effect e.mute) (v.effect e) := by
  obtain ⟨io, hr, rfl⟩ := h
  unfold World.effect Effect.mute
  simp only
  have h0 : Hue R { w with app := e.app } { w with app := e.app, io := io } := ⟨io, hr, rfl⟩
  revert h0
  generalize ({ w with app := e.app } : World σ τ) = x
  generalize ({ w with app := e.app, io := io } : World σ τ) = y
  generalize e.acts = as
  induction as generalizing x y with
  | nil => intro h; exact h
  | cons a as ih =>
    intro h
    have k := hue_act hA h a
    cases a <;> simp only [List.filter_cons, if_true, Bool.false_eq_true, if_false] at k ⊢ <;> exact ih _ _ k

theorem pair_call (c : Cmd) (vals : List Value) {w v : World σ τ} (h : Hue R w v) : Pair R (callHandler A.mute c vals w) (callHandler A c vals v) := by
  have ha : v.app = w.app := by obtain ⟨io, _, rfl⟩ := h; rfl
  have hs : w.snap = v.snap := by obtain ⟨io, _, rfl⟩ := h; rfl
  simp only [Pair, callHandler, hs, ha]
  exact ⟨hue_note (hue_effect hA h _) _, rfl⟩

theorem dyed_execCmd (c : Cmd) (toks : List Str) {w v : World σ τ} (h : Hue R w v) : Dyed R (execCmd A.mute c toks w) (execCmd A c toks v) := by
  have hd : v.dis = w.dis := by obtain ⟨io, _, rfl⟩ := h; rfl
  have key := fun vals => pair_call hA A c vals h
  unfold execCmd
  rw [hd, show A.mute.plat = A.plat from rfl]
  split
  · exact .ok _ h
  · split
    · split
      · exact .ok _ h
      · split
        · exact .error _
        · split
          · split
            · exact .ok _ h
            · exact .ok _ h
            · exact .ok _ h
            · exact .error _
            · rename_i vals _
              have k := key vals
              generalize callHandler A.mute c vals w = p at k
              generalize callHandler A c vals v = q at k
              obtain ⟨w', x⟩ := p; obtain ⟨v', y⟩ := q
              obtain ⟨k1, k2⟩ := k
              cases k2
              match x with
              | none => exact .ok _ k1
              | some (.badCast _) => exact .ok _ k1
              | some (.std _) => exact .ok _ k1
              | some .other => exact .ok _ k1
          · exact .ok _ h
    · split
      · exact .error _
      · split
        · rename_i args _ 
          have k := key (args.map Value.str)
          generalize callHandler A.mute c (args.map Value.str) w = p at k
          generalize callHandler A c (args.map Value.str) v = q at k
          obtain ⟨w', x⟩ := p; obtain ⟨v', y⟩ := q
          obtain ⟨k1, k2⟩ := k
          cases k2
          cases x with
          | none => exact .ok _ k1
          | some e => exact .ok _ k1
        · exact .ok _ h

omit hA in
theorem dyed_goOn {w v : World σ τ} (h : Hue R w v) {r r' : Res σ τ} (hr : Dyed R r r') {next next' : World σ τ → Res σ τ}
    (hn : ∀ {w v}, Hue R w v → Dyed R (next w) (next' v)) : Dyed R (goOn w r next) (goOn v r' next') := by
  cases hr with
  | error f => exact .error f
  | @ok w' v' o hl =>
    cases o with
    | found => exact .ok _ hl
    | thrown e => exact .ok _ hl
    | notFound =>
      have h1 : v.gen = w.gen := by obtain ⟨io, _, rfl⟩ := h; rfl
      have h2 : v'.gen = w'.gen := by obtain ⟨io, _, rfl⟩ := hl; rfl
      simp only [goOn, h1, h2]
      split
      · exact hn hl
      · exact .error _

theorem dyed_scanEntries (toks : List Str) (sub sub' : MenuInfo → Forest → World σ τ → Res σ τ) (hs : ∀ m k {w v}, Hue R w v → Dyed R (sub m k w) (sub' m k v)) :
    ∀ (f : Forest) {w v : World σ τ}, Hue R w v → Dyed R (scanEntries A.mute toks sub f w) (scanEntries A toks sub' f v) := by
  intro f
  induction f with
  | nil => intro w v h; exact .ok _ h
  | cmd c rest ih => intro w v h; exact dyed_goOn h (dyed_execCmd hA A c toks h) ih
  | menu m k rest _ ih => intro w v h; exact dyed_goOn h (hs m k h) ih

theorem dyed_handle (toks : List Str) : ∀ (via : Bool) (path : Path) {w v : World σ τ}, Hue R w v → Dyed R (handleCommand A.mute toks via path w) (handleCommand A toks via path v) := by
  induction toks with
  | nil =>
    intro via path w v h
    have hd : v.dis = w.dis := by obtain ⟨io, _, rfl⟩ := h; rfl
    cases path with
    | nil => unfold handleCommand; exact .ok _ h
    | cons p anc =>
      obtain ⟨m, k⟩ := p
      unfold handleCommand
      rw [hd]
      split
      · exact .ok _ h
      · exact .error _
  | cons t rest ih =>
    intro via path w v h
    have hd : v.dis = w.dis := by obtain ⟨io, _, rfl⟩ := h; rfl
    cases path with
    | nil => unfold handleCommand; exact .ok _ h
    | cons p anc =>
      obtain ⟨m, k⟩ := p
      unfold handleCommand
      rw [hd]
      split
      · exact .ok _ h
      · split
        · split
          · refine .ok _ ?_
            obtain ⟨io, hr, rfl⟩ := h
            exact ⟨io, hr, rfl⟩
          · refine dyed_goOn h (dyed_scanEntries hA A rest _ _ ?_ k h) ?_
            · intro m k w v h; exact ih false _ h
            · intro w v h; exact ih true anc h
        · exact .ok _ h

theorem dyed_scanCurrent (toks : List Str) {w v : World σ τ} (h : Hue R w v) : Dyed R (scanCurrent A.mute toks w) (scanCurrent A toks v) := by
  have hd : v.dis = w.dis := by obtain ⟨io, _, rfl⟩ := h; rfl
  have ht : v.tree = w.tree := by obtain ⟨io, _, rfl⟩ := h; rfl
  have hc : v.current = w.current := by obtain ⟨io, _, rfl⟩ := h; rfl
  unfold scanCurrent
  rw [ht, hc]
  split
  · exact .error _
  · rename_i path _
    unfold scanCmds
    cases path with
    | nil => exact .ok _ h
    | cons p anc =>
      obtain ⟨m, k⟩ := p
      simp only [hd]
      split
      · exact .ok _ h
      · refine dyed_goOn h (dyed_scanEntries hA A toks _ _ ?_ k h) ?_
        · intro m k w v h; exact dyed_handle hA A toks false _ h
        · intro w v h
          split
          · exact .error _
          · exact dyed_handle hA A toks true anc h

theorem pair_action (f : σ → Effect σ) (ev : Event) {w v : World σ τ} (h : Hue R w v) : Pair R (callAction (fun s => (f s).mute) ev w) (callAction f ev v) := by
  have ha : v.app = w.app := by obtain ⟨io, _, rfl⟩ := h; rfl
  simp only [Pair, callAction, ha]
  exact ⟨hue_effect hA (hue_note h ev) _, rfl⟩

theorem pair_optAction (a : Option (σ → Effect σ)) (ev : Event) {w v : World σ τ} (h : Hue R w v) :
    Pair R (optAction (a.map (fun f s => (f s).mute)) ev w) (optAction a ev v) := by
  cases a with
  | none => exact ⟨h, rfl⟩
  | some f => exact pair_action hA f ev h

theorem dyed_exit {w v : World σ τ} (h : Hue R w v) : Dyed R (exitSession A.mute w) (exitSession A v) := by
  unfold exitSession
  rw [show A.mute.exitSession = A.exitSession.map (fun f s => (f s).mute) from rfl, show A.mute.exitGlobal = A.exitGlobal.map (fun f s => (f s).mute) from rfl,
    show A.mute.storeFails = A.storeFails from rfl, show A.mute.store = A.store from rfl]
  cases A.exitSession with
  | none => exact .ok _ h
  | some f =>
    simp only [Option.map]
    have k := pair_action hA f .exitSession h
    generalize callAction (fun s => (f s).mute) .exitSession w = p at k
    generalize callAction f .exitSession v = q at k
    obtain ⟨w', x⟩ := p; obtain ⟨v', y⟩ := q
    obtain ⟨k1, k2⟩ := k
    cases k2
    cases x with
    | some e => exact .ok _ k1
    | none =>
      simp only
      have k := pair_optAction hA A.exitGlobal .exitGlobal k1
      simp only [Option.map] at k
      generalize optAction _ .exitGlobal w' = p at k ⊢
      generalize optAction A.exitGlobal .exitGlobal v' = q at k ⊢
      obtain ⟨w2, x⟩ := p; obtain ⟨v2, y⟩ := q
      obtain ⟨k1, k2⟩ := k
      cases k2
      cases x with
      | some e => exact .ok _ k1
      | none =>
        obtain ⟨io, hr, hst⟩ := k1
        simp only at hst
        subst hst
        simp only
        split
        · exact .error _
        · split
          · exact .ok _ ⟨io, hr, rfl⟩
          · exact .ok _ ⟨io, hr, rfl⟩

theorem pair_enter {w v : World σ τ} (h : Hue R w v) : Pair R (enterSession A.mute w) (enterSession A v) := by
  unfold enterSession
  rw [show A.mute.enterSession = A.enterSession.map (fun f s => (f s).mute) from rfl, show A.mute.enterGlobal = A.enterGlobal.map (fun f s => (f s).mute) from rfl]
  have k := pair_optAction hA A.enterGlobal .enterGlobal h
  generalize optAction _ .enterGlobal w = p at k ⊢
  generalize optAction A.enterGlobal .enterGlobal v = q at k ⊢
  obtain ⟨w', x⟩ := p; obtain ⟨v', y⟩ := q
  obtain ⟨k1, k2⟩ := k
  cases k2
  cases x with
  | some e => exact ⟨k1, rfl⟩
  | none => exact pair_optAction hA A.enterSession .enterSession k1

theorem pair_wrong (line : Str) {w v : World σ τ} (h : Hue R w v) : Pair R (wrongCommand A.mute line w) (wrongCommand A line v) := by
  have ha : (v.note (.wrong line)).app = (w.note (.wrong line)).app := by obtain ⟨io, _, rfl⟩ := h; rfl
  unfold wrongCommand
  rw [show A.mute.onWrong = A.onWrong.map (fun f s l => (f s l).mute) from rfl]
  cases A.onWrong with
  | none => exact ⟨hue_put hA (hue_note h _) _, rfl⟩
  | some f =>
    simp only [Pair, ha, Option.map]
    exact ⟨hue_effect hA (hue_note h _) _, rfl⟩

theorem pair_report (line : Str) (e : Exn) {w v : World σ τ} (h : Hue R w v) : Pair R (reportException A.mute line e w) (reportException A line e v) := by
  have ha : (v.note (.reported line e)).app = (w.note (.reported line e)).app := by obtain ⟨io, _, rfl⟩ := h; rfl
  unfold reportException
  rw [show A.mute.onException = A.onException.map (fun f s l e => (f s l e).mute) from rfl]
  cases A.onException with
  | none => exact ⟨hue_put hA (hue_note h _) _, rfl⟩
  | some f =>
    simp only [Pair, ha, Option.map]
    exact ⟨hue_effect hA (hue_note h _) _, rfl⟩

theorem dyed_catchAll (line : Str) {r r' : Res σ τ} (h : Dyed R r r') : Dyed R (catchAll A.mute line r) (catchAll A line r') := by
  cases h with
  | error f => exact .error f
  | ok o h =>
    match o with
    | .found => exact .ok _ h
    | .notFound => exact .ok _ h
    | .thrown .other => exact .ok _ (hue_put hA (hue_note h _) _)
    | .thrown (.std _) => exact (pair_report hA A line _ h).dyed
    | .thrown (.badCast _) => exact (pair_report hA A line _ h).dyed

omit hA in
theorem dyed_map {α β : Type} {r r' : Except Fault (World σ τ × α)} (h : Dyed R r r') (g : α → β) :
    Dyed R (match r with | .ok (w, x) => .ok (w, g x) | .error f => .error f) (match r' with | .ok (w, x) => .ok (w, g x) | .error f => .error f) := by
  cases h with
  | error f => exact .error f
  | ok o h => exact .ok _ h

theorem dyed_scanGlobal (fd fd' : Str → World σ τ → Except Fault (World σ τ × Option Exn)) (hf : ∀ l {w v}, Hue R w v → Dyed R (fd l w) (fd' l v)) (toks : List Str)
    {w v : World σ τ} (h : Hue R w v) : Dyed R (scanGlobal A.mute fd toks w) (scanGlobal A fd' toks v) := by
  have hh : v.hist = w.hist := by obtain ⟨io, _, rfl⟩ := h; rfl
  unfold scanGlobal
  rw [show A.mute.plat = A.plat from rfl]
  split
  · exact .error _
  · split
    · obtain ⟨io, hr, rfl⟩ := h
      simp only [helpCmd, World.note, bind, Except.bind]
      cases w.tree.locate w.current with
      | none => exact .error _
      | some p => exact .ok _ ⟨_, hA.put _ hr, rfl⟩
    · split
      · have k := dyed_exit hA A (hue_note h (.builtin .exit))
        simp only [bind, Except.bind]
        generalize exitSession A.mute (w.note (.builtin .exit)) = p at k
        generalize exitSession A (v.note (.builtin .exit)) = q at k
        cases k with
        | error f => exact .error f
        | ok o h => exact .ok _ h
      · split
        · rw [hh]
          split
          · exact .ok _ (hue_put hA (hue_note h _) _)
          · exact .ok _ (hue_note h _)
        · exact .ok _ h
  · split
    · split
      · exact .ok _ h
      · exact .ok _ h
      · exact .error _
      · rename_i n _
        simp only [bind, Except.bind, World.note, hh]
        split
        · exact .error _
        · rename_i hx _
          cases History.at hx n with
          | error f => exact .error f
          | ok r => cases r with
            | none => exact .ok _ (hue_hist (hue_note h _) _)
            | some cmd =>
              have k := hf cmd (hue_hist (hue_note h (.builtin (.bang n))) hx)
              simp only [World.note] at k ⊢
              revert k
              generalize fd cmd _ = p
              generalize fd' cmd _ = q
              intro k
              cases k with
              | error f => exact .error f
              | ok o h => exact .ok _ h
    · exact .ok _ h
  · exact .ok _ h

/-- Feeding the same line has the same visible effect. -/
theorem dyed_feed (fuel : Nat) : ∀ (line : Str) {w v : World σ τ}, Hue R w v → Dyed R (feed A.mute fuel line w) (feed A fuel line v) := by
  induction fuel with
  | zero => intro line w v h; exact .error _
  | succ fuel ih =>
    intro line w v h
    have hh : v.hist = w.hist := by obtain ⟨io, _, rfl⟩ := h; rfl
    unfold feed
    simp only [bind, Except.bind, hh]
    split
    · exact .error _
    · rename_i strs _
      split
      · exact .ok _ h
      · split
        · exact .error _
        · rename_i hx _
          refine dyed_catchAll hA A line ?_
          have k := dyed_scanGlobal hA A (feed A.mute fuel) (feed A fuel) ih strs (hue_hist h hx)
          revert k
          generalize scanGlobal A.mute (feed A.mute fuel) strs _ = p
          generalize scanGlobal A (feed A fuel) strs _ = q
          intro k
          cases k with
          | error f => exact .error f
          | @ok w v o h =>
            cases o with
            | found => exact .ok _ h
            | thrown e => exact .ok _ h
            | notFound =>
              simp only
              have k := dyed_scanCurrent hA A strs h
              revert k
              generalize scanCurrent A.mute strs w = p
              generalize scanCurrent A strs v = q
              intro k
              cases k with
              | error f => exact .error f
              | @ok w v o h =>
                cases o with
                | found => exact .ok _ h
                | thrown e => exact .ok _ h
                | notFound =>
                  simp only
                  have k := pair_wrong hA A line h
                  generalize wrongCommand A.mute line w = p at k
                  generalize wrongCommand A line v = q at k
                  obtain ⟨w', x⟩ := p; obtain ⟨v', y⟩ := q
                  obtain ⟨k1, k2⟩ := k
                  cases k2
                  cases x with
                  | none => exact .ok _ k1
                  | some e => exact .ok _ k1

end Verif
