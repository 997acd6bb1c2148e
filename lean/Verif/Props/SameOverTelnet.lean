import Verif.Proofs.TransferKeys
import Verif.Props.TelnetKeys
import Verif.Model.LocalSession
import Verif.Spec.Weave

set_option linter.unusedSimpArgs false

/-!
# Property C118: a telnet session does the same as a local one
-/

namespace Verif.Transfer
open Spec Props
open Terminal (Key)
open Processor (Proc)
open Telnet (Rx Ev Tel Step Server telnetApp exitAction)
open Spec.Telnet (Item Answered)

variable {σ τ : Type}

/-! ### The two kinds of session -/

/-- A local session of an application is created, and keys are handled in it (what the keyboard and the scheduler do to get them there is the subject of C77). -/
def desk (A : App σ τ) (n fuel : Nat) (w : World σ τ) (io : Io) (ks : List Key) : Except Fault (Proc σ τ × Option Exn) :=
  match Local.create A (fun a : Unit => a) () n w io with
  | .error f => .error f
  | .ok (s, some e) => .ok (s.proc, some e)
  | .ok (s, none) => Processor.run A fuel ks s.proc

/-- A client is accepted, and events happen. -/
def line (A : App σ τ) (S : Server σ) (fuel : Nat) (w : World σ τ) (io : Io) (es : List Ev) : Except Fault (Proc (σ × Bool) τ × Option Exn) :=
  match Telnet.accept A S w io with
  | .error f => .error f
  | .ok (t, some e) => .ok (t.proc, some e)
  | .ok (t, none) => (Telnet.events (telnetApp A S.exitAction true) fuel es t).map (fun r => (r.1.proc, r.2))

/-- The application of a local session with the exit action of the server. -/
def atDesk (A : App σ τ) (f : σ → Effect σ) : App σ τ := { A with enterSession := none, exitSession := some f }

/-- Local sessions whose exit action closes a connection: the second component of the state says whether it is open. -/
def wired (w : World σ τ) : World (σ × Bool) τ :=
  { app := (w.app, true), tree := w.tree, dis := w.dis, used := w.used, gen := w.gen, storage := w.storage, io := w.io, casts := w.casts, hist := w.hist, current := w.current, exit := w.exit, log := w.log }

variable {σ' : Type}

/-- The same has been done in both sessions, and the same has been written, but for what the telnet protocol demands. -/
structure SameSession (p : Proc σ τ) (q : Proc σ' τ) (protocol : Str) : Prop where
  /-- everything that was called, with its arguments, in order -/
  log : q.w.log = p.w.log
  tree : q.w.tree = p.w.tree
  dis : q.w.dis = p.w.dis
  current : q.w.current = p.w.current
  hist : q.w.hist = p.w.hist
  storage : q.w.storage = p.w.storage
  casts : q.w.casts = p.w.casts
  exit : q.w.exit = p.w.exit
  style : q.w.io.style = p.w.io.style
  term : q.term = p.term
  active : q.active = p.active
  out : Weave p.w.io.out protocol q.w.io.out

/-- Both executions end in the same fault or with the same exception (if any), and have done the same; the states of the applications are related. -/
inductive SameRun (R : Proc σ τ → Proc σ' τ → Prop) : Except Fault (Proc σ τ × Option Exn) → Except Fault (Proc σ' τ × Option Exn) → Str → Prop
  | fault (f n) : SameRun R (.error f) (.error f) n
  | ended {p q n} (x) : SameSession p q n → R p q → SameRun R (.ok (p, x)) (.ok (q, x)) n

theorem SameRun.weaken {R R' : Proc σ τ → Proc σ' τ → Prop} (hR : ∀ p q, R p q → R' p q) {a b} {n : Str} (h : SameRun R a b n) : SameRun R' a b n := by
  cases h with
  | fault f n => exact .fault f n
  | ended x h1 h2 => exact .ended x h1 (hR _ _ h2)

/-- The application's state is the same; the client is connected, unless the exit action has been called, and is not when the session has been left. -/
structure Link (p : Proc σ τ) (q : Proc (σ × Bool) τ) : Prop where
  app : q.w.app.1 = p.w.app
  connected : q.w.app.2 = true ∨ Event.exitSession ∈ q.w.log
  gone : q.w.exit = true → q.w.app.2 = false

/-- Neither the exit action of the `Cli` nor the storage throws, and the server has an exit action. -/
structure CalmExit (A : App σ τ) (server : Option (σ → Effect σ)) : Prop where
  action : ∃ f, server = some f
  global : ∀ g, A.exitGlobal = some g → ∀ s, (g s).exn = none
  store : ∀ t cmds, A.storeFails t cmds = none

/-- Before each of these keys is handled in the local session, its exit action has not been called (or: nothing else throws when it is left, and it has not been left). -/
def NotLeft (A : App σ τ) (f : σ → Effect σ) (n fuel : Nat) (w : World σ τ) (io : Io) (ks : List Key) : Prop :=
  ∀ ks' k, ks' ++ [k] <+: ks → ∀ p, desk (atDesk A f) n fuel w io ks' = .ok (p, none) → Event.exitSession ∉ p.w.log ∨ (CalmExit A (some f) ∧ p.w.exit = false)

/-! ### Proof -/

/-- The application's states are related like this, and one text is the other with pieces of `n` between. -/
def tie (K : List Event → Bool → σ → σ' → Prop) (hK : ∀ log ex e s s', K log ex s s' → K (log ++ [e]) ex s s') (F : List Event → Bool → Prop) (hF : ∀ log ex b, F log ex → F (log ++ [.builtin b]) ex) (n : Str) : Rel σ σ' where
  app := K
  later := hK
  out := fun a b => Weave a n b
  more := fun _ _ s h => h.left s
  free := F
  builtin := hF

theorem same_of {K : List Event → Bool → σ → σ' → Prop} {hK : ∀ log ex e s s', K log ex s s' → K (log ++ [e]) ex s s'} {F hF} {n : Str} {p : Proc σ τ} {q : Proc σ' τ} (h : LikeProc (tie K hK F hF n) p q) : SameSession p q n := by
  obtain ⟨⟨s, o, h1, h2, h3⟩, h4, h5⟩ := h
  rw [show q = ⟨q.w, q.term, q.active⟩ from rfl, h3]
  exact ⟨rfl, rfl, rfl, rfl, rfl, rfl, rfl, rfl, rfl, h4, h5, h2⟩

theorem both_map {α α' β β' : Type} {R : (α → β) → (α' → β') → Prop} (o : Option (α → β)) (g : (α → β) → α' → β') (h : ∀ f, R f (g f)) : Both R o (o.map g) := by
  cases o with
  | none => trivial
  | some f => exact h f

theorem both_same {α β : Type} {R : (α → β) → (α → β) → Prop} (o : Option (α → β)) (h : ∀ f, o = some f → R f f) : Both R o o := by
  cases o with
  | none => trivial
  | some f => exact h f rfl

/-- The application's states are equal, the client is connected unless the exit action has been called, and not when the session has been left. -/
abbrev rel (calm : Prop) (n : Str) : Rel σ (σ × Bool) :=
  tie (fun log ex s p => p.1 = s ∧ (p.2 = true ∨ Event.exitSession ∈ log) ∧ (ex = true → p.2 = false) ∧ (calm → p.2 = !ex)) (fun _ _ _ _ _ h => ⟨h.1, h.2.1.imp id (fun h => List.mem_append_left _ h), h.2.2⟩)
    (fun log ex => Event.exitSession ∉ log ∨ (calm ∧ ex = false)) (fun _ _ _ h => h.imp (by simp) id) n

/-- The exit action has been executed. -/
abbrev relLeft (n : Str) : Rel σ (σ × Bool) :=
  tie (fun log _ s p => p.1 = s ∧ Event.exitSession ∈ log ∧ p.2 = false) (fun _ _ _ _ _ h => ⟨h.1, List.mem_append_left _ h.2.1, h.2.2⟩) (fun _ _ => True) (fun _ _ _ _ => trivial) n

theorem telnet_sim (A : App σ τ) (f : σ → Effect σ) (n : Str) : Sim (atDesk A f) (telnetApp A (some f) true) (rel (CalmExit A (some f)) n) (relLeft n) where
  plat := rfl
  handler := by
    rintro log ex fn s s' v ⟨rfl, h⟩
    exact ⟨rfl, rfl, rfl, h⟩
  exception := both_map A.onException _ (by rintro g log ex s s' l e ⟨rfl, h⟩; exact ⟨rfl, rfl, rfl, h⟩)
  wrong := both_map A.onWrong _ (by rintro g log ex s s' l ⟨rfl, h⟩; exact ⟨rfl, rfl, rfl, h⟩)
  exitSession := by
    rintro log ex s s' hl ⟨rfl, h, h', h''⟩
    have hc : s'.2 = true := by
      rcases hl with hl | ⟨hk, hl⟩
      · exact h.resolve_right hl
      · rw [h'' hk, hl]; rfl
    have hx : ex ≠ true := fun he => by rw [h' he] at hc; cases hc
    refine ⟨fun hx => ?_, fun hf => ?_⟩
    · simp only [exitAction, hx, hc]
      exact ⟨rfl, hx, rfl, by simp, rfl⟩
    · cases he : (f s'.1).exn with
      | none => exact absurd he hf
      | some e =>
        simp only [exitAction, he]
        exact ⟨rfl, he, rfl, .inr (by simp), fun he => absurd he hx, h''⟩
  exitGlobal := by
    cases hg : A.exitGlobal with
    | none => simp only [atDesk, telnetApp, hg]; trivial
    | some g =>
      simp only [atDesk, telnetApp, hg]
      rintro log ex s s' _ ⟨rfl, h, h'⟩
      exact ⟨fun _ => ⟨rfl, rfl, rfl, List.mem_append_left _ h, h'⟩, fun hx => ⟨rfl, rfl, rfl, .inr (List.mem_append_left _ h), fun _ => h', fun k => absurd (k.global g hg s'.1) hx⟩⟩
  enterSession := trivial
  enterGlobal := both_map A.enterGlobal _ (by rintro g log ex s s' _ ⟨rfl, h⟩; exact ⟨rfl, rfl, rfl, h⟩)
  store := rfl
  storeFails := rfl
  out := rfl
  always := fun _ _ => trivial
  done := fun _ _ _ _ h => ⟨h.1, .inr h.2.1, fun _ => h.2.2, fun _ => h.2.2⟩
  fails := fun t cmds hx _ _ _ _ h => ⟨h.1, .inr h.2.1, fun _ => h.2.2, fun k => absurd (k.store t cmds) hx⟩

/-- The states are equal, and if leaving is calm, then the client is connected if and only if the session has not been left. -/
abbrev relSelf (calm : Prop) (n : Str) : Rel (σ × Bool) (σ × Bool) :=
  tie (fun _ ex s p => p = s ∧ (calm → p.2 = !ex)) (fun _ _ _ _ _ h => h) (fun _ _ => True) (fun _ _ _ _ => trivial) n

abbrev relGone (calm : Prop) (n : Str) : Rel (σ × Bool) (σ × Bool) := tie (fun _ _ s p => p = s ∧ (calm → p.2 = false)) (fun _ _ _ _ _ h => h) (fun _ _ => True) (fun _ _ _ _ => trivial) n

theorem telnet_self (A : App σ τ) (server : Option (σ → Effect σ)) (n : Str) : Sim (telnetApp A server true) (telnetApp A server true) (relSelf (CalmExit A server) n) (relGone (CalmExit A server) n) where
  plat := rfl
  handler := by
    rintro log ex fn s s' v ⟨rfl, h⟩
    exact ⟨rfl, rfl, rfl, h⟩
  exception := both_same _ (by
    rintro g hg log ex s s' l e ⟨rfl, h⟩
    refine ⟨rfl, rfl, rfl, ?_⟩
    rcases ho : A.onException with _ | g' <;> simp only [telnetApp, ho] at hg <;> cases hg
    exact h)
  wrong := both_same _ (by
    rintro g hg log ex s s' l ⟨rfl, h⟩
    refine ⟨rfl, rfl, rfl, ?_⟩
    rcases ho : A.onWrong with _ | g' <;> simp only [telnetApp, ho] at hg <;> cases hg
    exact h)
  exitSession := by
    rintro log ex s s' _ ⟨rfl, h⟩
    cases server with
    | none =>
      refine ⟨fun hx => (by cases hx), fun _ => ⟨rfl, rfl, rfl, h⟩⟩
    | some f =>
      cases he : (f s'.1).exn with
      | some e =>
        simp only [exitAction, he]
        exact ⟨fun hx => (by cases hx), fun _ => ⟨rfl, rfl, rfl, h⟩⟩
      | none =>
        simp only [exitAction, he]
        cases hc : s'.2 with
        | false =>
          simp only [Bool.not_false, if_true]
          exact ⟨fun hx => (by cases hx), fun _ => ⟨rfl, rfl, rfl, fun k => by rw [← h k, hc]⟩⟩
        | true =>
          simp only [Bool.not_true, Bool.false_eq_true, if_false, if_true]
          exact ⟨fun _ => ⟨rfl, rfl, rfl, fun _ => rfl⟩, fun hx => absurd rfl hx⟩
  exitGlobal := both_same _ (by
    rintro g hg log ex s s' _ ⟨rfl, h⟩
    rcases ho : A.exitGlobal with _ | g' <;> simp only [telnetApp, ho] at hg <;> cases hg
    refine ⟨fun _ => ⟨rfl, rfl, rfl, h⟩, fun hx => ⟨rfl, rfl, rfl, fun k => absurd (k.global g' ho s'.1) hx⟩⟩)
  enterSession := trivial
  enterGlobal := both_same _ (by
    rintro g hg log ex s s' l ⟨rfl, h⟩
    refine ⟨rfl, rfl, rfl, ?_⟩
    rcases ho : A.enterGlobal with _ | g' <;> simp only [telnetApp, ho] at hg <;> cases hg
    exact h)
  store := rfl
  storeFails := rfl
  out := rfl
  always := fun _ _ => trivial
  done := fun _ _ _ _ h => ⟨h.1, h.2⟩
  fails := fun t cmds hx _ _ _ _ h => ⟨h.1, fun k => absurd (k.store t cmds) hx⟩

/-- The text written besides the keys. -/
def opPuts : List Op → Str
  | [] => []
  | .put s :: ops => s ++ opPuts ops
  | .key _ :: ops => opPuts ops

theorem trace_puts (es : List Ev) (r : Rx) (s : Step) (q : List Key) : opPuts (trace es r s q).1 = (rxRun r (packets es)).2.answer := by
  induction es generalizing r s q with
  | nil => rfl
  | cons e es ih =>
    cases e with
    | packet b => simp only [trace, opPuts, packets, rxRun_append, ih]
    | disconnect => simp only [trace, packets, ih]
    | task => cases q <;> simp only [trace, opPuts, packets, ih]

section
variable {K : List Event → Bool → σ → σ' × Bool → Prop} {hK : ∀ log ex e s s', K log ex s s' → K (log ++ [e]) ex s s'} {F : List Event → Bool → Prop} {hF : ∀ log ex b, F log ex → F (log ++ [.builtin b]) ex}
  {D : App σ τ} {A : App σ' τ} {S : Server σ'} {L : Str → Rel σ (σ' × Bool)} (hs : ∀ n, Sim D (telnetApp A S.exitAction true) (tie K hK F hF n) (L n))
include hs

theorem same_ops (fuel : Nat) (ops : List Op) : ∀ {n : Str} {p : Proc σ τ} {q : Proc (σ' × Bool) τ}, LikeProc (tie K hK F hF n) p q →
    (∀ ks' k, ks' ++ [k] <+: opKeys ops → ∀ p', Processor.run D fuel ks' p = .ok (p', none) → F p'.w.log p'.w.exit) →
    (∃ x, Processor.run D fuel (opKeys ops) p = .error x ∧ runOps (telnetApp A S.exitAction true) fuel ops q = .error x) ∨
    ∃ p' q' x m, Processor.run D fuel (opKeys ops) p = .ok (p', x) ∧ runOps (telnetApp A S.exitAction true) fuel ops q = .ok (q', x) ∧ LikeProc (tie K hK F hF m) p' q' ∧
      m <+: n ++ opPuts ops ∧ (x = none → m = n ++ opPuts ops) := by
  induction ops with
  | nil => intro n p q h _; exact .inr ⟨p, q, none, n, rfl, rfl, h, by simp [opPuts], by simp [opPuts]⟩
  | cons o ops ih =>
    intro n p q h hfree
    cases o with
    | put s =>
      have h' : LikeProc (tie K hK F hF (n ++ s)) p { q with w := q.w.put s } := by
        obtain ⟨⟨t, o, h1, h2, h3⟩, h4, h5⟩ := h
        refine ⟨⟨t, o ++ s, h1, h2.right s, ?_⟩, h4, h5⟩
        rw [h3]; rfl
      have := ih h' hfree
      simp only [opKeys, runOps, opPuts, ← List.append_assoc]
      exact this
    | key k =>
      have h0 : F p.w.log p.w.exit := hfree [] k (by simp [opKeys]) p rfl
      simp only [opKeys, Processor.run, runOps, opPuts, bind, Except.bind]
      rcases alike_keypressed (hs n) fuel h0 h k with ⟨x, e1, e2⟩ | ⟨p', q', x, e1, e2, h'⟩
      · rw [e1, e2]; exact .inl ⟨x, rfl, rfl⟩
      · rw [e1, e2]
        cases x with
        | some e => exact .inr ⟨p', q', some e, n, rfl, rfl, h', List.prefix_append _ _, by intro h; cases h⟩
        | none =>
          refine ih h' ?_
          intro ks' k' hk p'' hr
          refine hfree (k :: ks') k' ?_ p'' ?_
          · simp only [opKeys, List.cons_append, List.cons_prefix_cons, true_and]
            exact hk
          · simp only [Processor.run, bind, Except.bind, e1]
            exact hr

/-- Both sessions begin in the same way. -/
theorem same_start (hD : D.enterSession = none) (hst : D.stored = A.stored) (w : World σ τ) (v : World σ' τ) (h00 : K [] false w.app (v.app, true)) (hwv : v = World.as w v.app w.io.out) (io : Io) :
    (∃ x, Local.create D (fun a : Unit => a) () S.historySize w io = .error x ∧ Telnet.accept A S v io = .error x) ∨
    ∃ s t x, Local.create D (fun a : Unit => a) () S.historySize w io = .ok (s, x) ∧ Telnet.accept A S v io = .ok (t, x) ∧ t.rx = Rx.init ∧ t.step = .s1 ∧ t.queue = [] ∧
      LikeProc (tie K hK F hF Telnet.greeting) s.proc t.proc := by
  have hw : ∀ o : Str, Weave o [] o := fun o => by simpa using Weave.nil.left o
  have h0 : Like (tie K hK F hF Telnet.greeting) (newSession D S.historySize w io) (World.put (τ := τ)
      { app := (v.app, true), tree := v.tree, dis := v.dis, used := v.used, gen := v.gen, storage := v.storage, io := io, casts := [],
        hist := History.loadCommands (History.init S.historySize) (A.stored v.storage), current := v.tree.root.id, exit := false, log := [] } Telnet.greeting) := by
    refine ⟨(v.app, true), io.out ++ Telnet.greeting, h00, (hw io.out).right Telnet.greeting, ?_⟩
    rw [hwv, ← hst]; rfl
  have k := twin_enter (hs Telnet.greeting) h0
  unfold Local.create Telnet.accept Telnet.connect
  simp only [newSession] at k ⊢
  rw [show ({ D with enterSession := none } : App σ τ) = D by cases D; cases hD; rfl]
  generalize enterSession D _ = a at k ⊢
  generalize enterSession (telnetApp A S.exitAction true) _ = b at k ⊢
  obtain ⟨w1, x⟩ := a; obtain ⟨v1, y⟩ := b
  obtain ⟨k1, k2⟩ := k
  simp only at k1 k2
  subst k2
  cases x with
  | some e => exact .inr ⟨_, _, _, rfl, rfl, rfl, rfl, rfl, k1, rfl, rfl⟩
  | none =>
    simp only [bind, Except.bind]
    rcases like_prompt k1 with ⟨g, e1, e2⟩ | ⟨w', v', e1, e2, hl⟩
    · rw [e1, e2]; exact .inl ⟨g, rfl, rfl⟩
    · rw [e1, e2]; exact .inr ⟨_, _, _, rfl, rfl, rfl, rfl, rfl, hl, rfl, rfl⟩

theorem core (hD : D.enterSession = none) (hst : D.stored = A.stored) (w : World σ τ) (v : World σ' τ) (h00 : K [] false w.app (v.app, true)) (hwv : v = World.as w v.app w.io.out) (io : Io) (fuel : Nat) (es : List Ev)
    (hfree : ∀ ks' k, ks' ++ [k] <+: opKeys (trace es Rx.init .s1 []).1 → ∀ p', desk D S.historySize fuel w io ks' = .ok (p', none) → F p'.w.log p'.w.exit) :
    ∃ protocol, protocol <+: Telnet.greeting ++ (rxRun Rx.init (packets es)).2.answer ∧
      ((∃ x, desk D S.historySize fuel w io (opKeys (trace es Rx.init .s1 []).1) = .error x ∧ line A S fuel v io es = .error x) ∨
       ∃ p q x, desk D S.historySize fuel w io (opKeys (trace es Rx.init .s1 []).1) = .ok (p, x) ∧ line A S fuel v io es = .ok (q, x) ∧ LikeProc (tie K hK F hF protocol) p q) ∧
      (∀ q, line A S fuel v io es = .ok (q, none) → protocol = Telnet.greeting ++ (rxRun Rx.init (packets es)).2.answer) := by
  have hput := trace_puts es Rx.init .s1 []
  unfold desk at hfree
  unfold desk line
  rcases same_start hs hD hst w v h00 hwv io with ⟨x, e1, e2⟩ | ⟨s, t, x, e1, e2, h1, h2, h3, h4⟩
  · rw [e1, e2]; exact ⟨[], List.nil_prefix, .inl ⟨x, rfl, rfl⟩, by intro q h; cases h⟩
  · rw [e1] at hfree
    rw [e1, e2]
    cases x with
    | some e => exact ⟨Telnet.greeting, List.prefix_append _ _, .inr ⟨_, _, _, rfl, rfl, h4⟩, by intro q h; cases h⟩
    | none =>
      simp only at hfree ⊢
      have ht : t = ⟨Rx.init, .s1, [], t.proc⟩ := by rw [← h1, ← h2, ← h3]
      have hev := events_trace (telnetApp A S.exitAction true) fuel es Rx.init .s1 [] t.proc
      rw [← ht] at hev
      rcases same_ops hs fuel (trace es Rx.init .s1 []).1 h4 hfree with ⟨x, e3, e4⟩ | ⟨p', q', x, m, e3, e4, h5, h6, h7⟩
      · rw [e4] at hev
        rw [e3, hev]
        exact ⟨[], List.nil_prefix, .inl ⟨x, rfl, rfl⟩, by intro q h; cases h⟩
      · rw [e4] at hev
        rw [hput] at h6 h7
        refine ⟨m, h6, ?_⟩
        cases x with
        | some e =>
          obtain ⟨t', e5, e6⟩ := hev
          rw [e3, e5]
          refine ⟨.inr ⟨_, _, _, rfl, rfl, ?_⟩, by intro q h; cases h⟩
          rw [show (t', some e).1.proc = q' from e6]
          exact h5
        | none =>
          simp only at hev
          rw [e3, hev]
          exact ⟨.inr ⟨_, _, _, rfl, rfl, h5⟩, fun _ _ => h7 rfl⟩

end

theorem same_core (A : App σ τ) (S : Server σ) (f : σ → Effect σ) (hS : S.exitAction = some f) (fuel : Nat) (w : World σ τ) (io : Io) (es : List Ev)
    (hfree : NotLeft A f S.historySize fuel w io (opKeys (trace es Rx.init .s1 []).1)) :
    ∃ protocol, protocol <+: Telnet.greeting ++ (rxRun Rx.init (packets es)).2.answer ∧
      SameRun Link (desk (atDesk A f) S.historySize fuel w io (opKeys (trace es Rx.init .s1 []).1)) (line A S fuel w io es) protocol ∧
      (∀ q, line A S fuel w io es = .ok (q, none) → protocol = Telnet.greeting ++ (rxRun Rx.init (packets es)).2.answer) := by
  have hs : ∀ n, Sim (atDesk A f) (telnetApp A S.exitAction true) (rel (CalmExit A (some f)) n) (relLeft n) := fun n => hS ▸ telnet_sim A f n
  obtain ⟨n, h1, h2, h3⟩ := core (D := atDesk A f) (A := A) (S := S) hs rfl rfl w w ⟨rfl, .inl rfl, (by intro h; cases h), fun _ => rfl⟩ rfl io fuel es hfree
  refine ⟨n, h1, ?_, h3⟩
  rcases h2 with ⟨x, e1, e2⟩ | ⟨p, q, x, e1, e2, h⟩
  · rw [e1, e2]; exact .fault x n
  · rw [e1, e2]
    refine .ended x (same_of h) ?_
    obtain ⟨⟨s, o, k1, _, k3⟩, _⟩ := h
    rw [show q = ⟨q.w, q.term, q.active⟩ from rfl, k3]
    exact ⟨k1.1, k1.2.1, k1.2.2.1⟩

theorem self_core (A : App σ τ) (S : Server σ) (fuel : Nat) (w : World σ τ) (io : Io) (es : List Ev) :
    ∃ protocol, protocol <+: Telnet.greeting ++ (rxRun Rx.init (packets es)).2.answer ∧
      SameRun (fun p q => q.w.app = p.w.app ∧ (CalmExit A S.exitAction → q.w.app.2 = !q.w.exit)) (desk (telnetApp A S.exitAction true) S.historySize fuel (wired w) io (opKeys (trace es Rx.init .s1 []).1)) (line A S fuel w io es) protocol ∧
      (∀ q, line A S fuel w io es = .ok (q, none) → protocol = Telnet.greeting ++ (rxRun Rx.init (packets es)).2.answer) := by
  obtain ⟨n, h1, h2, h3⟩ := core (D := telnetApp A S.exitAction true) (A := A) (S := S) (fun n => telnet_self A S.exitAction n) rfl rfl (wired w) w ⟨rfl, fun _ => rfl⟩ rfl io fuel es (fun _ _ _ _ _ => trivial)
  refine ⟨n, h1, ?_, h3⟩
  rcases h2 with ⟨x, e1, e2⟩ | ⟨p, q, x, e1, e2, h⟩
  · rw [e1, e2]; exact .fault x n
  · rw [e1, e2]
    refine .ended x (same_of h) ?_
    obtain ⟨⟨s, o, k1, _, k3⟩, _⟩ := h
    rw [show q = ⟨q.w, q.term, q.active⟩ from rfl, k3]
    exact ⟨k1.1, k1.2⟩

/-! ### C118 -/

/-- **C118** If the server has an exit action, and neither the exit action of the `Cli` nor the storage throws: whatever arrives and whatever is handled, the client is connected if and only if the session has not been left. -/
theorem C118_connected (A : App σ τ) (S : Server σ) (hc : CalmExit A S.exitAction) (fuel : Nat) (w : World σ τ) (io : Io) (es : List Ev) (q : Proc (σ × Bool) τ) (x : Option Exn)
    (h : line A S fuel w io es = .ok (q, x)) : q.w.app.2 = !q.w.exit := by
  obtain ⟨n, _, h2, _⟩ := self_core A S fuel w io es
  rw [h] at h2
  generalize desk _ _ _ _ _ _ = d at h2
  cases h2 with
  | ended _ _ hr => exact hr.2 hc

/-- The keys handled at any time are some of the first of those sent, and the answers some of the first of those due. -/
theorem sent_some (l : List (Key × Str)) (hl : ∀ x ∈ l, SendsT x.1 x.2) (items : List Item) (hv : ∀ i ∈ items, i.Valid ∧ i.NotExtended) (hi : items.flatMap Item.text = l.flatMap (·.2))
    (es : List Ev) (hp : packets es <+: items.flatMap Item.wire) :
    opKeys (trace es Rx.init .s1 []).1 <+: l.map (·.1) ∧ ∃ answers, Answered (items.filterMap Item.request) answers ∧ Telnet.greeting ++ (rxRun Rx.init (packets es)).2.answer <+: Telnet.greeting ++ answers.flatten := by
  obtain ⟨rest, hp⟩ := hp
  obtain ⟨answers, ha, hb, _⟩ := C47_answers_partial items hv [packets es ++ rest] (by simp [hp])
  simp only [Telnet.onPackets, onData_run, bind, Except.bind, Except.map, List.append_nil, Except.ok.injEq] at hb
  obtain ⟨g1, _, _⟩ := trace_keys es Rx.init .s1 []
  have g2 := sendsT_all l hl
  rw [← hi, show items.flatMap Item.text = (rxRun Rx.init (packets es ++ rest)).2.data by rw [hp, rxRun_items items hv], rxRun_append, keysOf_append] at g2
  rw [List.nil_append] at g1
  rw [rxRun_append] at hb
  refine ⟨?_, answers, ha, ?_⟩
  · rw [show l.map (·.1) = _ from (congrArg Prod.snd g2).symm]
    exact List.IsPrefix.trans ⟨_, g1⟩ (List.prefix_append _ _)
  · rw [← hb]
    exact ⟨_, List.append_assoc _ _ _⟩

/-- When enough keys are handled after the last packet, all have been handled. -/
theorem sent_all (l : List (Key × Str)) (hl : ∀ x ∈ l, SendsT x.1 x.2) (items : List Item) (hv : ∀ i ∈ items, i.Valid ∧ i.NotExtended) (hi : items.flatMap Item.text = l.flatMap (·.2))
    (es : List Ev) (hp : packets es = items.flatMap Item.wire) (n : Nat) (hn : l.length ≤ n) :
    opKeys (trace (es ++ List.replicate n .task) Rx.init .s1 []).1 = l.map (·.1) ∧ ∃ answers, Answered (items.filterMap Item.request) answers ∧ (rxRun Rx.init (packets (es ++ List.replicate n .task))).2.answer = answers.flatten := by
  have hpk : packets (es ++ List.replicate n .task) = items.flatMap Item.wire := by rw [packets_append, packets_tasks, hp, List.append_nil]
  obtain ⟨answers, ha, hb, _⟩ := C47_answers_partial items hv [packets (es ++ List.replicate n .task)] (by simp [hpk])
  simp only [Telnet.onPackets, onData_run, bind, Except.bind, Except.map, List.append_nil, Except.ok.injEq] at hb
  obtain ⟨g1, _, _⟩ := trace_keys (es ++ List.replicate n .task) Rx.init .s1 []
  rw [hpk, rxRun_items items hv] at g1
  simp only [hi, sendsT_all l hl, List.nil_append] at g1
  have h4 : (trace (es ++ List.replicate n .task) Rx.init .s1 []).2.2.2 = [] := by
    rw [trace_append]
    refine trace_tasks n _ _ _ ?_
    obtain ⟨g2, _, _⟩ := trace_keys es Rx.init .s1 []
    rw [hp, rxRun_items items hv] at g2
    simp only [hi, sendsT_all l hl, List.nil_append] at g2
    have := congrArg List.length g2
    simp at this
    omega
  rw [h4, List.append_nil] at g1
  exact ⟨g1, answers, ha, hb⟩

theorem NotLeft.some {A : App σ τ} {f : σ → Effect σ} {n fuel : Nat} {w : World σ τ} {io : Io} {ks ks' : List Key} (h : NotLeft A f n fuel w io ks) (hk : ks' <+: ks) : NotLeft A f n fuel w io ks' :=
  fun a k hp => h a k (hp.trans hk)

theorem greeting_sent : Telnet.greeting = Spec.Telnet.welcome := by decide

/-- **C118** (part) Let a server have an exit action, and let there be a local session of the same application, with the same exit action and history size. A client presses any keys of the specification; the
    bytes they send arrive with any commands and negotiations before, between and after them, cut into packets in any way and interleaved in any way with the handling of the keys. At any time (some of the
    bytes may not have arrived), for some of
    the first of these keys (those handled): the telnet session has done exactly what the local session does for them, and what it has written is what the local session writes, with nothing but pieces of
    the greeting and of the answers to the negotiations between. (What is written is sent with CR before each LF, C48.) Missing: keys that are handled after the exit action has been called, servers without
    exit action, clients that have gone (all refuted below), the data byte 255 and negotiations about option 255 (refuted in C91 and C46). -/
theorem C118_same_partial (A : App σ τ) (S : Server σ) (f : σ → Effect σ) (hS : S.exitAction = some f) (fuel : Nat) (w : World σ τ) (io : Io)
    (l : List (Key × Str)) (hl : ∀ x ∈ l, SendsT x.1 x.2) (hleft : NotLeft A f S.historySize fuel w io (l.map (·.1)))
    (items : List Item) (hv : ∀ i ∈ items, i.Valid ∧ i.NotExtended) (hi : items.flatMap Item.text = l.flatMap (·.2)) (es : List Ev) (hp : packets es <+: items.flatMap Item.wire) :
    ∃ ks protocol answers, ks <+: l.map (·.1) ∧ Answered (items.filterMap Item.request) answers ∧ protocol <+: Spec.Telnet.welcome ++ answers.flatten ∧
      SameRun Link (desk (atDesk A f) S.historySize fuel w io ks) (line A S fuel w io es) protocol := by
  rw [← greeting_sent]
  obtain ⟨h1, answers, h2, h3⟩ := sent_some l hl items hv hi es hp
  obtain ⟨protocol, g1, g2, _⟩ := same_core A S f hS fuel w io es (hleft.some h1)
  exact ⟨_, protocol, answers, h1, h2, g1.trans h3, g2⟩

/-- **C118** (part) The same when enough keys are handled after the last packet: the telnet session has done what the local session does for all the keys; and unless an exception has left the scheduler, all of
    the greeting and the answers have been written. -/
theorem C118_all_partial (A : App σ τ) (S : Server σ) (f : σ → Effect σ) (hS : S.exitAction = some f) (fuel : Nat) (w : World σ τ) (io : Io)
    (l : List (Key × Str)) (hl : ∀ x ∈ l, SendsT x.1 x.2) (hleft : NotLeft A f S.historySize fuel w io (l.map (·.1)))
    (items : List Item) (hv : ∀ i ∈ items, i.Valid ∧ i.NotExtended) (hi : items.flatMap Item.text = l.flatMap (·.2)) (es : List Ev) (hp : packets es = items.flatMap Item.wire) (n : Nat) (hn : l.length ≤ n) :
    ∃ protocol answers, Answered (items.filterMap Item.request) answers ∧ protocol <+: Spec.Telnet.welcome ++ answers.flatten ∧
      SameRun Link (desk (atDesk A f) S.historySize fuel w io (l.map (·.1))) (line A S fuel w io (es ++ List.replicate n .task)) protocol ∧
      (∀ q, line A S fuel w io (es ++ List.replicate n .task) = .ok (q, none) → protocol = Spec.Telnet.welcome ++ answers.flatten) := by
  rw [← greeting_sent]
  obtain ⟨h1, answers, h2, h3⟩ := sent_all l hl items hv hi es hp n hn
  obtain ⟨protocol, g1, g2, g3⟩ := same_core A S f hS fuel w io (es ++ List.replicate n .task) (h1 ▸ hleft)
  rw [h3] at g1 g3
  rw [h1] at g2
  exact ⟨protocol, answers, h2, g1, g2, g3⟩

/-- **C118** (part) For every server, and whatever keys are pressed after the session has been left: the telnet session does exactly what a local session does whose exit action is the one that the server installs
    (genericasioremotecli.h:460, which ends by closing the connection; the second component of the state says whether it is open). Missing: clients that have gone, and the data byte 255 and
    negotiations about option 255. -/
theorem C118_wired_partial (A : App σ τ) (S : Server σ) (fuel : Nat) (w : World σ τ) (io : Io)
    (l : List (Key × Str)) (hl : ∀ x ∈ l, SendsT x.1 x.2) (items : List Item) (hv : ∀ i ∈ items, i.Valid ∧ i.NotExtended) (hi : items.flatMap Item.text = l.flatMap (·.2))
    (es : List Ev) (hp : packets es <+: items.flatMap Item.wire) :
    ∃ ks protocol answers, ks <+: l.map (·.1) ∧ Answered (items.filterMap Item.request) answers ∧ protocol <+: Spec.Telnet.welcome ++ answers.flatten ∧
      SameRun (fun p q => q.w.app = p.w.app) (desk (telnetApp A S.exitAction true) S.historySize fuel (wired w) io ks) (line A S fuel w io es) protocol := by
  rw [← greeting_sent]
  obtain ⟨h1, answers, h2, h3⟩ := sent_some l hl items hv hi es hp
  obtain ⟨protocol, g1, g2, _⟩ := self_core A S fuel w io es
  exact ⟨_, protocol, answers, h1, h2, g1.trans h3, g2.weaken (fun _ _ h => h.1)⟩

/-- **C118** (part) The same when enough keys are handled after the last packet. -/
theorem C118_wired_all_partial (A : App σ τ) (S : Server σ) (fuel : Nat) (w : World σ τ) (io : Io)
    (l : List (Key × Str)) (hl : ∀ x ∈ l, SendsT x.1 x.2) (items : List Item) (hv : ∀ i ∈ items, i.Valid ∧ i.NotExtended) (hi : items.flatMap Item.text = l.flatMap (·.2))
    (es : List Ev) (hp : packets es = items.flatMap Item.wire) (n : Nat) (hn : l.length ≤ n) :
    ∃ protocol answers, Answered (items.filterMap Item.request) answers ∧ protocol <+: Spec.Telnet.welcome ++ answers.flatten ∧
      SameRun (fun p q => q.w.app = p.w.app) (desk (telnetApp A S.exitAction true) S.historySize fuel (wired w) io (l.map (·.1))) (line A S fuel w io (es ++ List.replicate n .task)) protocol ∧
      (∀ q, line A S fuel w io (es ++ List.replicate n .task) = .ok (q, none) → protocol = Spec.Telnet.welcome ++ answers.flatten) := by
  rw [← greeting_sent]
  obtain ⟨h1, answers, h2, h3⟩ := sent_all l hl items hv hi es hp n hn
  obtain ⟨protocol, g1, g2, g3⟩ := self_core A S fuel w io (es ++ List.replicate n .task)
  rw [h3] at g1 g3
  rw [h1] at g2
  exact ⟨protocol, answers, h2, g1, g2.weaken (fun _ _ h => h.1), g3⟩

/-- A server with an exit action. -/
def greets : Server (List Nat) := ⟨none, some (fun s => ⟨9 :: s, [.out bs!"bye\n"], none⟩), 10⟩

/-- What can be seen of an execution. -/
def seen {σ : Type} (r : Except Fault (Proc σ (List Str) × Option Exn)) : Option (σ × Str × Bool × Option Exn) := r.toOption.map (fun r => (r.1.w.app, r.1.w.io.out, r.1.w.exit, r.2))

/-- A client types `any`, with a negotiation between, and leaves. A local user does the same. -/
example :
    seen (line Sample.app greets 5 Sample.world Sample.io ([.packet (bs!"an" ++ [255, 251, 31]), .task, .packet (bs!"y" ++ [13, 0] ++ bs!"exit" ++ [13, 10])] ++ List.replicate 9 .task)) =
      some (([9, 5], false), Telnet.greeting ++ bs!"cli> " ++ [255, 253, 31] ++ bs!"any\r\nok\ncli> exit\r\nbye\n", true, none) ∧
    seen (desk (atDesk Sample.app (fun s => ⟨9 :: s, [.out bs!"bye\n"], none⟩)) 10 5 Sample.world Sample.io ((bs!"any").map .ascii ++ [.ret] ++ (bs!"exit").map .ascii ++ [.ret])) =
      some ([9, 5], bs!"cli> any\r\nok\ncli> exit\r\nbye\n", true, none) := by decide +kernel

/-- The hypotheses can be met: these are the keys, and the bytes they send. -/
example : ∃ (l : List (Key × Str)) (items : List Item), (∀ x ∈ l, SendsT x.1 x.2) ∧ l.map (·.1) = (bs!"any").map .ascii ++ [.ret] ∧ (∀ i ∈ items, i.Valid ∧ i.NotExtended) ∧
    items.flatMap Item.text = l.flatMap (·.2) ∧ packets [.packet (bs!"an" ++ [255, 251, 31]), .task, .packet (bs!"y" ++ [13, 0])] = items.flatMap Item.wire := by
  refine ⟨[(.ascii b%'a', bs!"a"), (.ascii b%'n', bs!"n"), (.ascii b%'y', bs!"y"), (.ret, [13, 0])], (bs!"an").map Item.data ++ [.option .will 31] ++ (bs!"y").map Item.data ++ [.data 13, .data 0], ?_, rfl, ?_, rfl, rfl⟩
  · intro x hx
    simp only [List.mem_cons, List.not_mem_nil, or_false] at hx
    rcases hx with rfl | rfl | rfl | rfl
    · exact .ascii (by simp [PlainT])
    · exact .ascii (by simp [PlainT])
    · exact .ascii (by simp [PlainT])
    · exact .enter0
  · intro i hi
    simp only [List.map_cons, List.map_nil, List.mem_append, List.mem_cons, List.not_mem_nil, or_false] at hi
    rcases hi with ((((rfl | rfl) | rfl) | rfl) | (rfl | rfl)) <;> simp [Item.Valid, Item.NotExtended]

theorem notLeft_of {A : App σ τ} {f : σ → Effect σ} {n fuel : Nat} {w : World σ τ} {io : Io} {ks : List Key}
    (h : ∀ i < ks.length, (match desk (atDesk A f) n fuel w io (ks.take i) with | .ok (p, none) => p.w.log.all (fun e => !(e matches .exitSession)) | _ => true) = true) : NotLeft A f n fuel w io ks := by
  intro ks' k hk p hp
  have hle := hk.length_le
  simp only [List.length_append, List.length_cons, List.length_nil] at hle
  have he : ks' = ks.take ks'.length := List.prefix_iff_eq_take.1 ((List.prefix_append _ _).trans hk)
  have := h ks'.length (by omega)
  rw [← he, hp] at this
  refine .inl (fun hm => ?_)
  have := List.all_eq_true.1 this _ hm
  cases this

/-- The keys of the example above: the exit action is called by the last of them. -/
example : NotLeft Sample.app (fun s => ⟨9 :: s, [.out bs!"bye\n"], none⟩) 10 5 Sample.world Sample.io ((bs!"any").map .ascii ++ [.ret] ++ (bs!"exit").map .ascii ++ [.ret]) := notLeft_of (by decide +kernel)

/-- Leaving a session of the sample application throws nothing. -/
example : CalmExit Sample.app greets.exitAction := ⟨⟨_, rfl⟩, (by rintro g h s; cases h), fun _ _ => rfl⟩

/-- **C118** Refuted: the user sets no exit action, neither of the server nor of the local session (whose exit action then does nothing, cli.h:388). The local session is left by `exit`; the telnet session is not. -/
theorem C118_no_exit_action_refuted :
    seen (desk (atDesk Sample.app (fun s => ⟨s, [], none⟩)) 10 5 Sample.world Sample.io ((bs!"exit").map .ascii ++ [.ret])) = some ([], bs!"cli> exit\r\n", true, none) ∧
    seen (line Sample.app ⟨none, none, 10⟩ 5 Sample.world Sample.io ([.packet (bs!"exit" ++ [13, 10])] ++ List.replicate 9 .task)) =
      some (([], true), Telnet.greeting ++ bs!"cli> exit\r\nbad_function_call\ncli> ", false, none) := by decide +kernel

/-- **C118** Refuted: the client presses Ctrl-D and is gone before this is handled. The local session is left, and its history saved; in the telnet session an exception leaves the scheduler, and nothing is saved. -/
theorem C118_gone_refuted :
    (desk (atDesk Sample.app (fun s => ⟨s, [], none⟩)) 10 5 Sample.world Sample.io ((bs!"any").map .ascii ++ [.ret, .eof])).toOption.map (fun r => (r.1.w.storage, r.1.w.exit, r.2.isSome)) = some ([bs!"any"], true, false) ∧
    (match Telnet.accept Sample.app ⟨none, some (fun s => ⟨s, [], none⟩), 10⟩ Sample.world Sample.io with
      | .ok (t, none) => (Telnet.events (telnetApp Sample.app (some (fun s => ⟨s, [], none⟩)) false) 5 (.packet (bs!"any" ++ [13, 10, 4]) :: .disconnect :: List.replicate 5 .task) t).toOption.map
          (fun r => (r.1.proc.w.storage, r.1.proc.w.exit, r.2.isSome))
      | _ => none) = some ([], false, true) := by decide +kernel

/-- **C118** Refuted: Ctrl-D is pressed twice (before the first has been handled, say). The exit action of the local session is executed twice; in the telnet session it is, too, but then the connection, which is closed
    already, is shut down, which throws: the exception leaves the scheduler. -/
theorem C118_twice_refuted :
    seen (desk (atDesk Sample.app (fun s => ⟨9 :: s, [.out bs!"bye\n"], none⟩)) 10 5 Sample.world Sample.io [.eof, .eof]) = some ([9, 9], bs!"cli> bye\nbye\n", true, none) ∧
    seen (line Sample.app greets 5 Sample.world Sample.io [.packet [4, 4], .task, .task]) =
      some (([9, 9], false), Telnet.greeting ++ bs!"cli> bye\nbye\n", true, some (.std bs!"shutdown: Bad file descriptor")) := by decide +kernel

end Verif.Transfer
