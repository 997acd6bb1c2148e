import Verif.Props.LocalSession
import Verif.Props.Replay
import Verif.Model.Creation

set_option linter.unusedSimpArgs false

/-!
# C100: the construction of a local session
-/

namespace Verif.Props
open Spec
open Terminal (Key)
open Keyboard (decode)

variable {σ τ α : Type}

/-- What happens apart from the steps of the constructor. -/
def besides (es : List (Creation.Ev α)) : List (Local.Ev α) := es.filterMap (fun | .loc e => some e | .go => none)

theorem besides_go (es : List (Creation.Ev α)) : besides (.go :: es) = besides es := rfl
theorem besides_loc (e : Local.Ev α) (es : List (Creation.Ev α)) : besides (.loc e :: es) = e :: besides es := rfl

/-- What the constructor will still do to the session. -/
def toCome (A : App σ τ) : Creation.Phase → World σ τ → Except Fault (World σ τ × Option Exn)
  | .entered, w | .prompting, w =>
    match prompt w with
    | .error f => .error f
    | .ok w => .ok (w, none)
  | .ready, w => .ok (w, none)
  | .failed, w => .ok (w, some .other)
  | _, w =>
    match enterSession { A with enterSession := none } w with
    | (w, some e) => .ok (w, some e)
    | (w, none) =>
      match prompt w with
      | .error f => .error f
      | .ok w => .ok (w, none)

/-- While the session is under construction and nobody else runs the scheduler: nothing has been handled, and the world is what the constructor has made of it so far. -/
structure Making (A : App σ τ) (R : Except Fault (World σ τ × Option Exn)) (s : Creation.St σ τ α) : Prop where
  handled : s.loc.handled = 0
  busy : s.loc.busy = false
  live : s.loc.live = true
  term : s.loc.proc = ⟨s.loc.proc.w, ⟨[], 0⟩, true⟩
  rest : toCome A s.phase s.loc.proc.w = R

/-- The session with another world. -/
def withW (l : Local.St σ τ α) (w : World σ τ) : Local.St σ τ α := { l with proc := { l.proc with w := w } }

theorem kb_apart (A : App σ τ) (fuel : Nat) (p : Platform) (manual : α → α) (l : Local.St σ τ α) (e : Keyboard.Ev α) :
    (Local.step A fuel p manual l (.kb e) = .ok none ∧ ∀ w, Local.step A fuel p manual (withW l w) (.kb e) = .ok none) ∨
    ∃ k : Keyboard.Kb α, Local.step A fuel p manual l (.kb e) = .ok (some ({ l with kb := k }, none)) ∧ ∀ w, Local.step A fuel p manual (withW l w) (.kb e) = .ok (some (withW { l with kb := k } w, none)) := by
  simp only [Local.step, withW]
  split
  · split
    · exact .inl ⟨rfl, fun _ => rfl⟩
    · exact .inr ⟨_, rfl, fun _ => rfl⟩
  · exact .inl ⟨rfl, fun _ => rfl⟩

/-- Once the constructor has returned, the session is that of `Model/LocalSession`. -/
theorem ready_run {A : App σ τ} {other : Bool} {fuel : Nat} {p : Platform} {manual : α → α} (es : List (Creation.Ev α)) : ∀ {s : Creation.St σ τ α}, s.phase = .ready →
    (∀ {s' x}, Creation.run A other fuel p manual es s = .ok (some (s', x)) → s'.phase = .ready ∧ Local.run A fuel p manual (besides es) s.loc = .ok (some (s'.loc, x))) ∧
    (∀ {f}, Creation.run A other fuel p manual es s = .error f → Local.run A fuel p manual (besides es) s.loc = .error f) := by
  induction es with
  | nil => intro s hr; exact ⟨(fun h => by cases h; exact ⟨hr, rfl⟩), (fun h => by cases h)⟩
  | cons e es ih =>
    intro s hr
    simp only [Creation.run]
    cases e with
    | go =>
      simp only [Creation.step, Creation.go, hr]
      exact ⟨(fun h => by cases h), (fun h => by cases h)⟩
    | loc e =>
      have key : Creation.step A other fuel p manual s (.loc e) = Creation.step.lift s (Local.step A fuel p manual s.loc e) := by
        cases e <;> simp [Creation.step, hr]
      rw [key, besides_loc]
      simp only [Local.run]
      cases hs : Local.step A fuel p manual s.loc e with
      | error f => simp only [Creation.step.lift]; exact ⟨(fun h => by cases h), (fun h => by cases h; rfl)⟩
      | ok r =>
        cases r with
        | none => simp only [Creation.step.lift]; exact ⟨(fun h => by cases h), (fun h => by cases h)⟩
        | some r =>
          obtain ⟨l, x⟩ := r
          simp only [Creation.step.lift]
          cases x with
          | none => exact ih (s := { s with loc := l }) hr
          | some x => exact ⟨(fun h => by cases h; exact ⟨hr, rfl⟩), (fun h => by cases h)⟩

/-- When it has failed, keys that have been posted are executed as in `Model/LocalSession`. -/
theorem failed_run {A : App σ τ} {other : Bool} {fuel : Nat} {p : Platform} {manual : α → α} (es : List (Creation.Ev α)) : ∀ {s : Creation.St σ τ α} {f : Fault}, s.phase = .failed →
    Creation.run A other fuel p manual es s = .error f → Local.run A fuel p manual (besides es) s.loc = .error f := by
  induction es with
  | nil => intro s f hr h; cases h
  | cons e es ih =>
    intro s f hr h
    simp only [Creation.run] at h
    cases e with
    | go => simp only [Creation.step, Creation.go, hr] at h; cases h
    | loc e =>
      have key : Creation.step A other fuel p manual s (.loc e) = .ok none ∨ Creation.step A other fuel p manual s (.loc e) = Creation.step.lift s (Local.step A fuel p manual s.loc e) := by
        cases e <;> simp [Creation.step, hr]
      rcases key with key | key
      · rw [key] at h; cases h
      · rw [key] at h
        rw [besides_loc]
        simp only [Local.run]
        cases hs : Local.step A fuel p manual s.loc e with
        | error f => rw [hs] at h; cases h; rfl
        | ok r =>
          rw [hs] at h
          cases r with
          | none => cases h
          | some r =>
            obtain ⟨l, x⟩ := r
            cases x with
            | none => exact ih (s := { s with loc := l }) hr h
            | some x => cases h

theorem making_go {A : App σ τ} {p : Platform} {manual : α → α} {R : Except Fault (World σ τ × Option Exn)} {s : Creation.St σ τ α} (hm : Making A R s) (h1 : s.phase ≠ .ready) (h2 : s.phase ≠ .failed) :
    (∃ f, Creation.go A p manual s = .error f ∧ R = .error f) ∨
    (∃ s', Creation.go A p manual s = .ok (some s') ∧ ((s'.phase = .failed ∧ ∃ w e, R = .ok (w, some e)) ∨
      (s'.phase = .ready ∧ ∃ w, R = .ok (w, none) ∧ s'.loc = withW s.loc w) ∨ (s'.phase ≠ .ready ∧ s'.phase ≠ .failed ∧ Making A R s' ∧ ∃ w, s'.loc = withW s.loc w))) := by
  obtain ⟨l, ph⟩ := s
  obtain ⟨hh, hb, hl, ht, hr⟩ := hm
  simp only at *
  cases ph with
  | ready => exact absurd rfl h1
  | failed => exact absurd rfl h2
  | started => exact .inr ⟨_, rfl, .inr (.inr ⟨by simp, by simp, ⟨hh, hb, hl, ht, hr⟩, l.proc.w, rfl⟩)⟩
  | registering => exact .inr ⟨_, rfl, .inr (.inr ⟨by simp, by simp, ⟨hh, hb, hl, ht, hr⟩, l.proc.w, rfl⟩)⟩
  | registered =>
    refine .inr ⟨⟨l, .entering⟩, ?_, .inr (.inr ⟨by simp, by simp, ⟨hh, hb, hl, ht, hr⟩, l.proc.w, rfl⟩)⟩
    simp [Creation.go, hb]
  | entered =>
    refine .inr ⟨⟨l, .prompting⟩, ?_, .inr (.inr ⟨by simp, by simp, ⟨hh, hb, hl, ht, hr⟩, l.proc.w, rfl⟩)⟩
    simp [Creation.go, hb]
  | entering =>
    right
    simp only [Creation.go]
    simp only [toCome] at hr
    cases he : enterSession { A with enterSession := none } l.proc.w with
    | mk w x =>
      rw [he] at hr
      cases x with
      | some e => exact ⟨_, rfl, .inl ⟨rfl, w, e, hr.symm⟩⟩
      | none => exact ⟨_, rfl, .inr (.inr ⟨by simp, by simp, ⟨hh, hb, hl, by rw [ht], hr⟩, w, rfl⟩)⟩
  | prompting =>
    simp only [Creation.go]
    simp only [toCome] at hr
    cases hp : prompt l.proc.w with
    | error f => rw [hp] at hr; exact .inl ⟨f, rfl, hr.symm⟩
    | ok w => rw [hp] at hr; exact .inr ⟨_, rfl, .inr (.inl ⟨rfl, w, hr.symm, rfl⟩)⟩

theorem withW_withW (l : Local.St σ τ α) (w w' : World σ τ) : withW (withW l w) w' = withW l w' := rfl

theorem making_run {A : App σ τ} {fuel : Nat} {p : Platform} {manual : α → α} {R : Except Fault (World σ τ × Option Exn)} (es : List (Creation.Ev α)) : ∀ {s : Creation.St σ τ α}, Making A R s → s.phase ≠ .ready → s.phase ≠ .failed →
    (∀ {s' x}, Creation.run A false fuel p manual es s = .ok (some (s', x)) → s'.phase = .ready → ∃ w, R = .ok (w, none) ∧ Local.run A fuel p manual (besides es) (withW s.loc w) = .ok (some (s'.loc, x))) ∧
    (∀ {f}, Creation.run A false fuel p manual es s = .error f → R = .error f ∨ (∃ w e, R = .ok (w, some e)) ∨ ∃ w, R = .ok (w, none) ∧ Local.run A fuel p manual (besides es) (withW s.loc w) = .error f) := by
  induction es with
  | nil => intro s hm h1 h2; exact ⟨(fun h hr => by cases h; exact absurd hr h1), (fun h => by cases h)⟩
  | cons e es ih =>
    intro s hm h1 h2
    simp only [Creation.run]
    cases e with
    | go =>
      rw [besides_go]
      simp only [Creation.step]
      rcases making_go (p := p) (manual := manual) hm h1 h2 with ⟨f, g1, g2⟩ | ⟨s1, g1, g2⟩
      · rw [g1]; exact ⟨(fun h => by cases h), (fun h => by cases h; exact .inl g2)⟩
      · rw [g1]
        simp only
        rcases g2 with ⟨a, w, e, b⟩ | ⟨a, w, b, c⟩ | ⟨a, b, c, w, d⟩
        · refine ⟨fun h hr => ?_, fun h => .inr (.inl ⟨w, e, b⟩)⟩
          -- the constructor has failed: it never becomes ready
          have fail : ∀ (es : List (Creation.Ev α)) (s1 s' : Creation.St σ τ α) x, s1.phase = .failed → Creation.run A false fuel p manual es s1 = .ok (some (s', x)) → s'.phase = .failed := by
            intro es
            induction es with
            | nil => intro s1 s' x hf h; cases h; exact hf
            | cons e es ih =>
              intro s1 s' x hf h
              simp only [Creation.run] at h
              have key : ∀ r, Creation.step A false fuel p manual s1 e = .ok (some r) → r.1.phase = .failed := by
                intro r hr
                have lft : ∀ q, Creation.step.lift s1 q = .ok (some r) → r.1.phase = .failed := by
                  intro q hq
                  cases q with
                  | error f => cases hq
                  | ok q =>
                    cases q with
                    | none => cases hq
                    | some q => cases hq; exact hf
                cases e with
                | go => simp [Creation.step, Creation.go, hf] at hr
                | loc e =>
                  cases e with
                  | kb e => exact lft _ hr
                  | task => simp only [Creation.step, hf, or_true, if_true] at hr; exact lft _ hr
                  | done => exact lft _ hr
                  | destroy => simp [Creation.step, hf] at hr
              cases hs : Creation.step A false fuel p manual s1 e with
              | error f => rw [hs] at h; cases h
              | ok r =>
                cases r with
                | none => rw [hs] at h; cases h
                | some r =>
                  have := key r hs
                  obtain ⟨s2, y⟩ := r
                  rw [hs] at h
                  cases y with
                  | some y => cases h; exact this
                  | none => exact ih s2 s' x this h
          have := fail es s1 _ _ a h
          rw [this] at hr; cases hr
        · have r := ready_run (A := A) (other := false) (fuel := fuel) (p := p) (manual := manual) es a
          rw [c] at r
          exact ⟨fun h _ => ⟨w, b, (r.1 h).2⟩, fun h => .inr (.inr ⟨w, b, r.2 h⟩)⟩
        · have r := ih c a b
          rw [d] at r
          simp only [withW_withW] at r
          exact r
    | loc e =>
      rw [besides_loc]
      cases e with
      | kb e =>
        simp only [Creation.step]
        rcases kb_apart A fuel p manual s.loc e with ⟨g1, _⟩ | ⟨k, g1, g2⟩
        · rw [g1]; simp only [Creation.step.lift]; exact ⟨(fun h => by cases h), (fun h => by cases h)⟩
        · rw [g1]
          simp only [Creation.step.lift]
          have r := ih (s := { s with loc := { s.loc with kb := k } }) ⟨hm.handled, hm.busy, hm.live, hm.term, hm.rest⟩ h1 h2
          simp only [Local.run, g2]
          exact r
      | task => simp only [Creation.step, h1, h2, or_self, if_false, Bool.false_eq_true]; exact ⟨(fun h => by cases h), (fun h => by cases h)⟩
      | done => simp only [Creation.step, Local.step, hm.busy, Bool.false_eq_true, if_false, Creation.step.lift]; exact ⟨(fun h => by cases h), (fun h => by cases h)⟩
      | destroy => simp only [Creation.step, h1, if_false]; exact ⟨(fun h => by cases h), (fun h => by cases h)⟩

theorem making_begin (A : App σ τ) (manual : α → α) (tty : α) (n : Nat) (w : World σ τ) (io : Io) : Making A (toCome A .started (newSession A n w io)) (Creation.begin A manual tty n w io) :=
  ⟨rfl, rfl, rfl, rfl, rfl⟩

theorem create_toCome (A : App σ τ) (manual : α → α) (tty : α) (n : Nat) (w : World σ τ) (io : Io) :
    Local.create A manual tty n w io = (toCome A .started (newSession A n w io)).map (fun r => (withW (Creation.begin A manual tty n w io).loc r.1, r.2)) := by
  simp only [Local.create, toCome]
  cases enterSession { A with enterSession := none } (newSession A n w io) with
  | mk w1 x =>
    cases x with
    | some e => rfl
    | none =>
      simp only
      cases prompt w1 with
      | error f => rfl
      | ok w2 => rfl

/-- **C100** (part) If no other thread runs the scheduler while the session is constructed, the constructor can be taken as one step: whatever is typed meanwhile, and whatever the reader thread does meanwhile, the session ends up as
    if all of it had happened after the construction. So all that is known about sessions (C77: every key is handled, in order) holds for the keys typed during the construction too. Missing: another thread, see below. -/
theorem C100_constructed_partial (A : App σ τ) (fuel : Nat) (p : Platform) (manual : α → α) (tty : α) (n : Nat) (w : World σ τ) (io : Io) (es : List (Creation.Ev α)) (s : Creation.St σ τ α) (x : Option Exn)
    (h : Creation.run A false fuel p manual es (Creation.begin A manual tty n w io) = .ok (some (s, x))) (hr : s.phase = .ready) :
    ∃ s0, Local.create A manual tty n w io = .ok (s0, none) ∧ Local.run A fuel p manual (besides es) s0 = .ok (some (s.loc, x)) := by
  obtain ⟨w1, h1, h2⟩ := (making_run es (making_begin A manual tty n w io) (by simp [Creation.begin]) (by simp [Creation.begin])).1 h hr
  refine ⟨_, ?_, h2⟩
  rw [create_toCome, h1]
  rfl

/-- **C100** (part) In this case the keys typed, during the construction or later, are handled in order, none lost, none twice. -/
theorem C100_typed_ahead_partial (A : App σ τ) (fuel : Nat) (p : Platform) (manual : α → α) (tty : α) (n : Nat) (w : World σ τ) (io : Io) (es : List (Creation.Ev α)) (s : Creation.St σ τ α)
    (h : Creation.run A false fuel p manual es (Creation.begin A manual tty n w io) = .ok (some (s, none))) (hr : s.phase = .ready) (hu : ∀ e, .loc e ∈ es → Undisturbed e) :
    ∃ s0 keys, Local.create A manual tty n w io = .ok (s0, none) ∧ keys <+: (decode p .first (typedBytes (besides es))).2 ∧ Processor.run A fuel keys s0.proc = .ok (s.loc.proc, none) ∧
      (¬ Pending s.loc → keys = (decode p .first (typedBytes (besides es))).2) := by
  obtain ⟨s0, h1, h2⟩ := C100_constructed_partial A fuel p manual tty n w io es s none h hr
  have hu' : ∀ e ∈ besides es, Undisturbed e := by
    intro e he
    simp only [besides, List.mem_filterMap] at he
    obtain ⟨a, ha, hb⟩ := he
    cases a with
    | go => cases hb
    | loc e' => cases hb; exact hu _ ha
  by_cases hp : Pending s.loc
  · obtain ⟨keys, g1, g2⟩ := C77_keys A fuel p manual tty n w io s0 s.loc (besides es) h1 hu' h2
    exact ⟨s0, keys, h1, g1, g2, fun hn => absurd hp hn⟩
  · exact ⟨s0, _, h1, List.prefix_refl _, C77_all A fuel p manual tty n w io s0 s.loc (besides es) h1 hu' h2 hp, fun _ => rfl⟩

/-- **C100** (part) And the construction adds no undefined behaviour, if the enter action does not throw. -/
theorem C100_defined_partial (A : App σ τ) (fuel : Nat) (p : Platform) (manual : α → α) (tty : α) (n : Nat) (w : World σ τ) (io : Io) (es : List (Creation.Ev α)) (f : Fault)
    (hx : ∀ g s, A.enterGlobal = some g → (g s).exn = none) (h : Creation.run A false fuel p manual es (Creation.begin A manual tty n w io) = .error f) :
    Local.create A manual tty n w io = .error f ∨ ∃ s0, Local.create A manual tty n w io = .ok (s0, none) ∧ Local.run A fuel p manual (besides es) s0 = .error f := by
  rcases (making_run es (making_begin A manual tty n w io) (by simp [Creation.begin]) (by simp [Creation.begin])).2 h with h1 | ⟨w1, e, h1⟩ | ⟨w1, h1, h2⟩
  · left; rw [create_toCome, h1]; rfl
  · exfalso
    simp only [toCome] at h1
    have : (enterSession { A with enterSession := none } (newSession A n w io)).2 = none := by
      simp only [enterSession, optAction]
      cases hg : A.enterGlobal with
      | none => rfl
      | some g =>
        simp only [callAction, hx g _ hg]
    cases he : enterSession { A with enterSession := none } (newSession A n w io) with
    | mk w2 y =>
      rw [he] at h1 this
      simp only at this
      subst this
      simp only at h1
      split at h1 <;> cases h1
  · right
    refine ⟨_, ?_, h2⟩
    rw [create_toCome, h1]
    rfl

/-! ### Which thread calls the handlers -/

/-- **C100** The handlers of the commands are called by nothing but the execution of posted keys, that is by the thread that runs the scheduler: the reader thread calls none, and neither do the constructor and the destructor. The reader
    thread leaves the whole session alone. -/
theorem C100_handlers (A : App σ τ) (other : Bool) (fuel : Nat) (p : Platform) (manual : α → α) (s s' : Creation.St σ τ α) (x : Option Exn) (e : Creation.Ev α) (he : e ≠ .loc .task)
    (h : Creation.step A other fuel p manual s e = .ok (some (s', x))) : calls s'.loc.proc.w = calls s.loc.proc.w ∧ (e ≠ .go → s'.loc.proc = s.loc.proc) := by
  have lft : ∀ (q : Except Fault (Option (Local.St σ τ α × Option Exn))), (∀ l y, q = .ok (some (l, y)) → l.proc = s.loc.proc) → Creation.step.lift s q = .ok (some (s', x)) → s'.loc.proc = s.loc.proc := by
    intro q hq h
    cases q with
    | error f => cases h
    | ok q =>
      cases q with
      | none => cases h
      | some q => cases h; exact hq _ _ rfl
  cases e with
  | go =>
    refine ⟨?_, fun h => absurd rfl h⟩
    simp only [Creation.step] at h
    cases hg : Creation.go A p manual s with
    | error f => rw [hg] at h; cases h
    | ok r =>
      cases r with
      | none => rw [hg] at h; cases h
      | some r =>
        rw [hg] at h
        cases h
        simp only [Creation.go] at hg
        split at hg
        · cases hg; rfl
        · cases hg; rfl
        · split at hg <;> cases hg; rfl
        · cases he : enterSession { A with enterSession := none } s.loc.proc.w with
          | mk w y =>
            have hc : calls w = calls s.loc.proc.w := by
              have : w = (enterSession { A with enterSession := none } s.loc.proc.w).1 := by rw [he]
              rw [this]
              simp only [enterSession, optAction]
              cases hg : A.enterGlobal with
              | none => rfl
              | some g =>
                have ht : ∀ v : World σ τ, calls (v.note .enterGlobal) = calls v := by intro v; simp [calls, World.note, isRan]
                have ce : ∀ (v : World σ τ) e, calls (v.effect e) = calls v := by intro v e; simp only [calls, (effect_same v e).2.1]
                simp only [callAction]
                cases (g s.loc.proc.w.app).exn with
                | none => simp only [ce, ht]
                | some y => simp only [ce, ht]
            rw [he] at hg
            cases y with
            | none => cases hg; exact hc
            | some y => cases hg; exact hc
        · split at hg <;> cases hg; rfl
        · cases hp : prompt s.loc.proc.w with
          | error f => rw [hp] at hg; cases hg
          | ok w => rw [hp] at hg; cases hg; exact congrArg (fun l => (l.filter isRan).length) (prompt_out hp).2.1
        · cases hg
        · cases hg
  | loc e =>
    have key : s'.loc.proc = s.loc.proc := by
      cases e with
      | kb e =>
        refine lft _ ?_ h
        intro l y hq
        simp only [Local.step] at hq
        split at hq
        · split at hq
          · cases hq
          · cases hq; rfl
        · cases hq
      | task => exact absurd rfl he
      | done =>
        refine lft _ ?_ h
        intro l y hq
        simp only [Local.step] at hq
        split at hq
        · split at hq
          · cases hq
          · cases hq; rfl
        · cases hq
      | destroy =>
        simp only [Creation.step] at h
        split at h
        · refine lft _ ?_ h
          intro l y hq
          simp only [Local.step] at hq
          split at hq
          · cases hq
          · split at hq
            · cases hq
            · cases hq; rfl
        · cases h
    exact ⟨by rw [key], fun _ => key⟩

/-- **C100 refuted** Not every callback is executed by this thread (README.md: "each cli callback will be executed in this thread"): the enter action is called by the constructor, before the scheduler has executed anything. -/
theorem C100_enter_refuted (A : App σ τ) (fuel : Nat) (p : Platform) (manual : α → α) (tty : α) (n : Nat) (w : World σ τ) (io : Io) (g : σ → Effect σ) (hg : A.enterGlobal = some g) (hx : ∀ s, (g s).exn = none) :
    ∃ s : Creation.St σ τ α, Creation.run A false fuel p manual [.go, .go, .go, .go] (Creation.begin A manual tty n w io) = .ok (some (s, none)) ∧ s.loc.proc.w.log = [.enterGlobal] ∧ s.loc.proc.w.app = (g w.app).app := by
  refine ⟨⟨{ (Creation.begin A manual tty n w io).loc with proc := ⟨((newSession A n w io).note .enterGlobal).effect (g w.app), ⟨[], 0⟩, true⟩ }, .entered⟩, ?_, ?_, ?_⟩
  · simp [Creation.run, Creation.step, Creation.begin, Creation.go, enterSession, optAction, callAction, newSession, hg, hx]
  · simp only [log_noted]; rfl
  · exact (effect_result _ _).1

/-! ### Another thread runs the scheduler -/

/-- The steps that bring a key of one byte to the scheduler. -/
def keyed (c : Byte) : List (Creation.Ev α) := [.loc (.kb (.arrive c)), .loc (.kb .check), .loc (.kb .ready), .loc (.kb .getc), .loc (.kb .post)]

/-- **C100 refuted** If another thread runs the scheduler, a key that is typed while the session is constructed can be lost: it is posted and executed, but the session does not know of it, since its handler has not been registered. -/
theorem C100_lost_refuted (A : App σ τ) (fuel : Nat) (p : Platform) (manual : α → α) (tty : α) (n : Nat) (w : World σ τ) (io : Io) :
    ∃ s : Creation.St σ τ α, Creation.run A true fuel p manual (keyed b%'a' ++ [.loc .task]) (Creation.begin A manual tty n w io) = .ok (some (s, none)) ∧
      s.loc.kb.posted = [.ascii b%'a'] ∧ s.loc.handled = 1 ∧ s.loc.proc = (Creation.begin A manual tty n w io).loc.proc := by
  simp [keyed, Creation.run, Creation.step, Creation.step.lift, Creation.begin, Creation.Phase.inside, Local.step, Local.ownStep, Keyboard.step, Keyboard.init, Keyboard.step.after, Keyboard.next]

/-- **C100 refuted** And the behaviour can be undefined: the key is executed while the constructor assigns the handler, or while it executes the enter action, or while it writes the prompt. -/
theorem C100_race_refuted (A : App σ τ) (fuel : Nat) (p : Platform) (manual : α → α) (tty : α) (n : Nat) (w : World σ τ) (io : Io) :
    Creation.run A true fuel p manual (keyed b%'a' ++ [.go, .loc .task]) (Creation.begin A manual tty n w io) = .error (.ub .dataRace) ∧
    Creation.run A true fuel p manual (keyed b%'a' ++ [.go, .go, .go, .loc .task]) (Creation.begin A manual tty n w io) = .error (.ub .dataRace) := by
  simp [keyed, Creation.run, Creation.step, Creation.step.lift, Creation.begin, Creation.go, Creation.Phase.inside, Local.step, Local.ownStep, Keyboard.step, Keyboard.init, Keyboard.step.after, Keyboard.next]

/-- **C100** What the thread that runs the scheduler does with a key while the session is constructed, in whatever state: as long as the handler has not been registered, the key is lost; while the handler is assigned, the enter action is
    executed or the prompt is written, the behaviour is undefined; in between the key is handled as in a session that has been constructed. While it executes a command, it takes no other key; and if the scheduler is run by nobody else,
    no key is taken at all. -/
theorem C100_meanwhile (A : App σ τ) (fuel : Nat) (p : Platform) (manual : α → α) (s : Creation.St σ τ α) (key : Terminal.Key) (hk : s.loc.kb.posted[s.loc.handled]? = some key) :
    (s.phase ≠ .ready → s.phase ≠ .failed → Creation.step A false fuel p manual s (.loc .task) = .ok none) ∧
    (s.loc.busy = true → ∀ other, Creation.step A other fuel p manual s (.loc .task) = .ok none) ∧
    (s.loc.busy = false →
      (s.phase = .started → Creation.step A true fuel p manual s (.loc .task) = .ok (some (⟨{ s.loc with handled := s.loc.handled + 1 }, .started⟩, none))) ∧
      (s.phase = .registering ∨ s.phase = .entering ∨ s.phase = .prompting → Creation.step A true fuel p manual s (.loc .task) = .error (.ub .dataRace)) ∧
      (s.phase = .registered ∨ s.phase = .entered → ∀ l x, Local.step A fuel p manual s.loc .task = .ok (some (l, x)) → Creation.step A true fuel p manual s (.loc .task) = .ok (some (⟨l, s.phase⟩, x)))) := by
  obtain ⟨l, ph⟩ := s
  simp only at hk ⊢
  refine ⟨fun h1 h2 => by simp [Creation.step, h1, h2], fun hb other => ?_, fun hb => ⟨?_, ?_, ?_⟩⟩
  · cases other <;> cases ph <;> simp [Creation.step, hb, Local.step, Creation.step.lift]
  · rintro rfl; simp [Creation.step, hb, hk, Creation.Phase.inside]
  · rintro (rfl | rfl | rfl) <;> simp [Creation.step, hb, hk, Creation.Phase.inside]
  · rintro (rfl | rfl) l x h <;> simp [Creation.step, hb, hk, Creation.Phase.inside, h, Creation.step.lift]

/-- **C100** How the constructor goes on, in whatever state: the phases follow each other, the keyboard is not touched, and `Enter` and `Prompt` are executed in the third and in the last step. If a command is being executed by another
    thread when one of them begins, the behaviour is undefined. If the enter action throws, the keyboard is stopped and the session no longer exists. -/
theorem C100_phases (A : App σ τ) (p : Platform) (manual : α → α) (l : Local.St σ τ α) :
    Creation.go A p manual ⟨l, .started⟩ = .ok (some ⟨l, .registering⟩) ∧
    Creation.go A p manual ⟨l, .registering⟩ = .ok (some ⟨l, .registered⟩) ∧
    Creation.go A p manual ⟨l, .registered⟩ = (if l.busy then .error (.ub .dataRace) else .ok (some ⟨l, .entering⟩)) ∧
    (∀ w, enterSession { A with enterSession := none } l.proc.w = (w, none) → Creation.go A p manual ⟨l, .entering⟩ = .ok (some ⟨{ l with proc := { l.proc with w := w } }, .entered⟩)) ∧
    (∀ w x s', enterSession { A with enterSession := none } l.proc.w = (w, some x) → Creation.go A p manual ⟨l, .entering⟩ = .ok (some s') →
      s'.phase = .failed ∧ s'.loc.live = false ∧ s'.loc.proc = { l.proc with w := w } ∧ s'.loc.handled = l.handled ∧ Keyboard.step p manual l.kb .stop = some s'.loc.kb) ∧
    Creation.go A p manual ⟨l, .entered⟩ = (if l.busy then .error (.ub .dataRace) else .ok (some ⟨l, .prompting⟩)) ∧
    (∀ w, prompt l.proc.w = .ok w → Creation.go A p manual ⟨l, .prompting⟩ = .ok (some ⟨{ l with proc := { l.proc with w := w } }, .ready⟩)) ∧
    Creation.go A p manual ⟨l, .ready⟩ = .ok none ∧ Creation.go A p manual ⟨l, .failed⟩ = .ok none := by
  refine ⟨rfl, rfl, rfl, ?_, ?_, rfl, ?_, rfl, rfl⟩
  · intro w hw; simp [Creation.go, hw]
  · intro w x s' hw h
    simp only [Creation.go, hw] at h
    split at h
    · cases h
    · rename_i k hk; cases h; exact ⟨rfl, rfl, rfl, rfl, hk⟩
  · intro w hw; simp [Creation.go, hw]

/-- **C100** The constructor needs six steps, and if nothing else happens meanwhile, they do what the constructor does (if the enter action does not throw). -/
theorem C100_six (A : App σ τ) (other : Bool) (fuel : Nat) (p : Platform) (manual : α → α) (tty : α) (n : Nat) (w : World σ τ) (io : Io) (s : Local.St σ τ α) (h : Local.create A manual tty n w io = .ok (s, none)) :
    Creation.run A other fuel p manual (List.replicate 6 .go) (Creation.begin A manual tty n w io) = .ok (some (⟨s, .ready⟩, none)) := by
  unfold Local.create at h
  split at h
  · cases h
  · rename_i w1 h1
    split at h
    · cases h
    · rename_i w2 h2
      cases h
      simp [List.replicate, Creation.run, Creation.step, Creation.begin, Creation.go, h1, h2]

/-! ### The enter action throws -/

/-- **C100 refuted** If the enter action throws an exception, the constructor does, and the keyboard is destroyed; a key that has been typed meanwhile is then handled by the destroyed keyboard. -/
theorem C100_throws_refuted (A : App σ τ) (fuel : Nat) (p : Platform) (manual : α → α) (tty : α) (n : Nat) (w : World σ τ) (io : Io) (g : σ → Effect σ) (hg : A.enterGlobal = some g) (hx : ∀ s, (g s).exn ≠ none) :
    Creation.run A false fuel p manual (keyed b%'a' ++ [.go, .go, .go, .go, .loc (.kb .check), .loc (.kb .ready), .loc .task]) (Creation.begin A manual tty n w io) = .error (.ub .dangling) := by
  cases hy : (g w.app).exn with
  | none => exact absurd hy (hx _)
  | some y =>
    simp [keyed, Creation.run, Creation.step, Creation.step.lift, Creation.begin, Creation.go, Local.step, Local.ownStep, Keyboard.step, Keyboard.init, Keyboard.step.after, Keyboard.next, enterSession, optAction,
      callAction, newSession, hg, hy]

/-- **C100** (part) If nothing has been posted when the destruction of the keyboard is over, nothing is used any more. -/
theorem C100_throws_partial (A : App σ τ) (fuel : Nat) (p : Platform) (manual : α → α) (s : Creation.St σ τ α) (hf : s.phase = .failed) (hl : s.loc.live = false) (hb : s.loc.busy = false) (hr : s.loc.kb.reader = .ended)
    (hh : s.loc.handled = s.loc.kb.posted.length) (other : Bool) (es : List (Creation.Ev α)) : ∃ r, Creation.run A other fuel p manual es s = .ok r := by
  obtain ⟨r, h⟩ := C76_local_partial A fuel p manual s.loc hl hb hr hh (besides es)
  cases hc : Creation.run A other fuel p manual es s with
  | ok r => exact ⟨r, rfl⟩
  | error f => exact absurd (failed_run es hf hc) (by rw [h]; simp)

/-! ### Concrete cases -/

/-- What can be seen of a session under construction. -/
def viewMade (r : Except Fault (Option (Creation.St (List Nat) (List Str) Bool × Option Exn))) : Option ((List Nat × Nat) × (Creation.Phase × Str)) :=
  match r with
  | .ok (some (s, none)) => some ((s.loc.proc.w.app, s.loc.handled), (s.phase, s.loc.proc.w.io.out))
  | _ => none

/-- `any` and Enter are typed while the session is constructed, and are handled afterwards: the handler is called. -/
example : viewMade (Creation.run Sample.app false 3 plat (fun _ => false) ((bs!"an").flatMap keyed ++ [.go, .go, .go] ++ (bs!"y\n").flatMap keyed ++ [.go, .go, .go] ++ List.replicate 4 (.loc .task) ++ [.loc .done])
    (Creation.begin Sample.app (fun _ => false) true 9 Sample.world Sample.io)) = some (([5], 4), (.ready, bs!"cli> any\r\nok\ncli> ")) := by decide +kernel

/-- The same while another thread runs the scheduler, which comes too early: `ny` is a wrong command. -/
example : viewMade (Creation.run Sample.app true 3 plat (fun _ => false) ((bs!"a").flatMap keyed ++ [.loc .task] ++ [.go, .go, .go] ++ (bs!"ny\n").flatMap keyed ++ [.go, .go, .go] ++ List.replicate 3 (.loc .task) ++ [.loc .done])
    (Creation.begin Sample.app (fun _ => false) true 9 Sample.world Sample.io)) = some (([], 4), (.ready, bs!"cli> ny\r\nwrong command: ny\ncli> ")) := by decide +kernel

/-- An enter action that throws. -/
def unwelcome : App (List Nat) (List Str) := { Sample.app with enterGlobal := some (fun s => ⟨s, [], some .other⟩) }
example : ∃ g, { unwelcome with enterGlobal := some (fun s => ⟨s, [.out bs!"hello"], none⟩) }.enterGlobal = some g ∧ ∀ s : List Nat, (g s).exn = none := ⟨_, rfl, by simp⟩
example : ∃ g, unwelcome.enterGlobal = some g ∧ ∀ s, (g s).exn ≠ none := ⟨_, rfl, by simp⟩
example : ∃ s : Creation.St (List Nat) (List Str) Bool,
    Creation.run unwelcome false 3 plat (fun _ => false) [.go, .go, .go, .go, .loc (.kb .check), .loc (.kb .ready)] (Creation.begin unwelcome (fun _ => false) true 9 Sample.world Sample.io) = .ok (some (s, none)) ∧
    s.phase = .failed ∧ s.loc.live = false ∧ s.loc.busy = false ∧ s.loc.kb.reader = .ended ∧ s.loc.handled = s.loc.kb.posted.length := ⟨_, rfl, rfl, rfl, rfl, rfl, rfl⟩

end Verif.Props
