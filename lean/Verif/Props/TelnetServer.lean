import Verif.Props.NetKeys
import Verif.Props.Sessions
import Verif.Props.AlikeKeys
import Verif.Model.TelnetServer

set_option linter.unusedSimpArgs false

/-!
# C99: a telnet server with all its clients
-/

namespace Verif.Props
open Spec
open Net (Life Task owned)
open Terminal (Key)
open Telnet (Tel Server telnetApp)
open TelnetServer (Serv)

variable {σ τ : Type}

/-- What has happened to a client: the keys that have been handled, the data that have been decoded, the data that have been sent; in order. -/
structure Seen where
  keys : List Key
  data : List Str
  sent : List Str
  deriving DecidableEq, Repr

def Seen.none : Seen := ⟨[], [], []⟩
def Seen.add (a b : Seen) : Seen := ⟨a.keys ++ b.keys, a.data ++ b.data, a.sent ++ b.sent⟩

/-- What an event is to client `j`. -/
def nowTo (s : Serv σ τ) (j : Nat) : TelnetServer.Ev → Seen
  | .conn i e =>
    if i = j then
      match s.conns[j]? with
      | some l => ⟨keyAt l e, dataAt l e, arrivals [e]⟩
      | .none => .none
    else .none
  | _ => .none

/-- What an execution is to client `j`. -/
def story (A : App σ τ) (S : Server σ) (fuel j : Nat) : List TelnetServer.Ev → Serv σ τ → Seen
  | [], _ => .none
  | e :: es, s =>
    match TelnetServer.step A S fuel s e with
    | .ok (some (s', _)) => (nowTo s j e).add (story A S fuel j es s')
    | _ => .none

/-- One thread runs the scheduler. -/
def Serial (es : List TelnetServer.Ev) : Prop := ∀ j e, .conn j e ∈ es → OneThread e

/-- The keys that a client has typed, if it has sent these data. -/
def typedBy (data : List Str) : List Key := (keysOf .s1 (rxRun Telnet.Rx.init data.flatten).2.data).2

/-- What is true of a connection with such a history. -/
structure Served (h : Seen) (l : Life σ τ) : Prop where
  fresh : l.tel.queue = []
  rx : l.tel.rx = (rxRun Telnet.Rx.init h.data.flatten).1
  dec : l.tel.step = (keysOf .s1 (rxRun Telnet.Rx.init h.data.flatten).2.data).1
  keys : h.keys ++ keysIn l.queue = typedBy h.data
  single : Single l
  sent : l.tel.proc.w.app.2 = true → h.data ++ readsIn l.queue = h.sent
  order : Orderly l
  within : h.data <+: h.sent

theorem dataAt_prefix (l : Life σ τ) {e : Net.Ev} (he : OneThread e) : dataAt l e <+: readsIn l.queue := by
  cases e with
  | arrive d => exact List.nil_prefix
  | lost => exact List.nil_prefix
  | exec i alive =>
    cases he
    simp only [dataAt]
    split
    · cases hq : l.queue with
      | nil => exact List.nil_prefix
      | cons t q =>
        cases t with
        | read d => simp [readsIn]
        | key k => exact List.nil_prefix
        | fail => exact List.nil_prefix
    · exact List.nil_prefix

theorem served_hears {h : Seen} {l : Life σ τ} (t : Str) (hl : Served h l) : Served h (TelnetServer.hears t l) := by
  unfold TelnetServer.hears
  split
  · exact ⟨hl.fresh, hl.rx, hl.dec, hl.keys, hl.single, hl.sent, ⟨hl.order.shape, hl.order.closed⟩, hl.within⟩
  · exact hl

theorem served_seen {h : Seen} {l : Life σ τ} (sh : Sessions.Shared σ τ) (hl : Served h l) : Served h (TelnetServer.seenLife sh l) :=
  ⟨hl.fresh, hl.rx, hl.dec, hl.keys, hl.single, hl.sent, ⟨hl.order.shape, hl.order.closed⟩, hl.within⟩

theorem served_step {A : App σ τ} {S : Server σ} {fuel : Nat} {h : Seen} {l l' : Life σ τ} {e : Net.Ev} {x : Option Exn} (hl : Served h l) (he : OneThread e)
    (hs : Net.step A S fuel l e = .ok (some (l', x))) : Served (h.add ⟨keyAt l e, dataAt l e, arrivals [e]⟩) l' := by
  obtain ⟨a1, ⟨c1, c2⟩, _, a4⟩ := step_keys hs hl.fresh
  obtain ⟨b1, b2⟩ := step_reads hs hl.single
  have e1 := a4 he
  refine ⟨a1, ?_, ?_, ?_, b1, ?_, orderly_step hl.order he hs, ?_⟩
  · simp only [Seen.add, List.flatten_append, rxRun_append]; rw [c1, hl.rx]
  · simp only [Seen.add, List.flatten_append, rxRun_append, keysOf_append]; rw [c2, hl.rx, hl.dec]
  · simp only [Seen.add, List.append_assoc, e1]
    rw [← List.append_assoc, hl.keys]
    simp only [typedBy, decoded, List.flatten_append, rxRun_append, keysOf_append, hl.rx, hl.dec]
  · intro ho
    obtain ⟨o1, o2⟩ := b2 ho
    simp only [Seen.add, List.append_assoc, o2]
    rw [← List.append_assoc, hl.sent o1]
  · simp only [Seen.add]
    cases hc : l.tel.proc.w.app.2 with
    | true =>
      have h1 : h.data ++ dataAt l e <+: h.data ++ readsIn l.queue := List.prefix_append_right_inj _ |>.2 (dataAt_prefix l he)
      rw [hl.sent hc] at h1
      exact h1.trans (List.prefix_append _ _)
    | false =>
      have : dataAt l e = [] := by cases e <;> simp [dataAt, hc]
      rw [this, List.append_nil]
      exact hl.within.trans (List.prefix_append _ _)

theorem served_start {A : App σ τ} {S : Server σ} {w : World σ τ} {io : Io} {l : Life σ τ} {x : Option Exn} (h : Net.start A S w io = .ok (l, x)) (hop : x = none → l.tel.proc.w.app.2 = true) : Served .none l := by
  obtain ⟨q1, q2, q3, q4⟩ := accept_fresh h
  refine ⟨q1, by rw [q3]; rfl, by rw [q4]; rfl, by rw [q2]; rfl, ⟨fun _ => by rw [q2]; rfl, by rw [q2]; decide⟩, fun _ => by rw [q2]; rfl, ⟨⟨[], ?_⟩, ?_⟩, List.nil_prefix⟩
  · rw [q2]
    cases l.op <;> simp
  · intro hc
    unfold Net.start at h
    split at h
    · cases h
    · cases h; rfl
    · cases h; rw [hop rfl] at hc; cases hc

/-- The state of the session that a client gets, before `OnConnect`. -/
def greeted (A : App σ τ) (S : Server σ) (w : World σ τ) (io : Io) : World (σ × Bool) τ :=
  { app := (w.app, true), tree := w.tree, dis := w.dis, used := w.used, gen := w.gen, storage := w.storage, io := io.put Telnet.greeting, casts := [],
    hist := History.loadCommands (History.init S.historySize) (A.stored w.storage), current := w.tree.root.id, exit := false, log := [] }

/-- Creating a session for a client has defined behaviour, whatever the enter action does. -/
theorem start_defined (A : App σ τ) (S : Server σ) (w : World σ τ) (io : Io) : ∃ w1 x, enterSession (telnetApp A S.exitAction true) (greeted A S w io) = (w1, x) ∧ x = (does A.enterGlobal w.app).exn ∧
    ∃ w2, (x = none → prompt w1 = .ok w2) ∧ (x ≠ none → w2 = w1) ∧ Net.start A S w io = .ok (⟨⟨Telnet.Rx.init, .s1, [], ⟨w2, ⟨[], 0⟩, true⟩⟩, [], x.isNone⟩, x) := by
  have ha : Telnet.accept A S w io = Telnet.connect (telnetApp A S.exitAction true) { greeted A S w io with io := io } := rfl
  unfold Telnet.connect at ha
  rw [show World.put { greeted A S w io with io := io } Telnet.greeting = greeted A S w io from rfl] at ha
  have hroot : ∀ (as : List Act) (v : World (σ × Bool) τ), (as.foldl World.act v).tree.root = v.tree.root ∧ (as.foldl World.act v).current = v.current ∧ (as.foldl World.act v).exit = v.exit := by
    intro as
    induction as with
    | nil => intro v; exact ⟨rfl, rfl, rfl⟩
    | cons a as ih =>
      intro v
      obtain ⟨i1, i2, i3⟩ := ih (v.act a)
      refine ⟨i1.trans (act_root v a), i2.trans ?_, i3.trans ?_⟩ <;> (cases a <;> simp only [World.act] <;> (try split) <;> rfl)
  have hx : (enterSession (telnetApp A S.exitAction true) (greeted A S w io)).2 = (does A.enterGlobal w.app).exn ∧
      (enterSession (telnetApp A S.exitAction true) (greeted A S w io)).1.tree.root.id = (enterSession (telnetApp A S.exitAction true) (greeted A S w io)).1.current := by
    simp only [enterSession, optAction, Telnet.telnetApp]
    cases A.enterGlobal with
    | none => exact ⟨rfl, rfl⟩
    | some f =>
      simp only [Option.map_some, callAction]
      obtain ⟨r1, r2, _⟩ := hroot (Telnet.lift (f w.app) true).acts { (greeted A S w io).note .enterGlobal with app := (Telnet.lift (f w.app) true).app }
      cases he : (f w.app).exn with
      | none =>
        have : (Telnet.lift (f w.app) true).exn = none := he
        simp only [greeted] at this ⊢
        simp only [this, does, he]
        refine ⟨trivial, ?_⟩
        simp only [World.effect]
        exact (congrArg MenuInfo.id r1).trans r2.symm
      | some e =>
        have : (Telnet.lift (f w.app) true).exn = some e := he
        simp only [greeted] at this ⊢
        simp only [this, does, he]
        refine ⟨trivial, ?_⟩
        simp only [World.effect]
        exact (congrArg MenuInfo.id r1).trans r2.symm
  cases hq : enterSession (telnetApp A S.exitAction true) (greeted A S w io) with
  | mk w1 x =>
    rw [hq] at hx ha
    obtain ⟨h1, h2⟩ := hx
    simp only at h1 h2 ha
    refine ⟨w1, x, rfl, h1, ?_⟩
    cases x with
    | some e => exact ⟨w1, (fun h => by cases h), fun _ => rfl, by unfold Net.start; rw [ha]; rfl⟩
    | none =>
      have hp : ∃ w2, prompt w1 = .ok w2 := by
        unfold prompt
        split
        · exact ⟨_, rfl⟩
        · simp only [Tree.locate, h2, if_true]
          exact ⟨_, rfl⟩
      obtain ⟨w2, hp⟩ := hp
      refine ⟨w2, fun _ => hp, fun h => absurd rfl h, ?_⟩
      unfold Net.start
      rw [ha]
      simp only [bind, Except.bind, hp]
      rfl

theorem start_open {A : App σ τ} {S : Server σ} {w : World σ τ} {io : Io} {l : Life σ τ} {x : Option Exn} (h : Net.start A S w io = .ok (l, x)) (hx : x = none) : l.tel.proc.w.app.2 = true := by
  obtain ⟨w1, y, _, hy, w2, _, _, e⟩ := start_defined A S w io
  rw [h] at e
  cases e
  have hn := hy.symm.trans hx
  unfold Net.start at h
  split at h
  · cases h
  · rename_i t e1 ht
    cases (C75_telnet_partial A S w io hn t _ ht).1
  · rename_i t ht
    simp only [Except.ok.injEq, Prod.mk.injEq] at h
    rw [← h.1]
    exact (C75_telnet_partial A S w io hn t _ ht).2.1

/-! ### One event -/

/-- What an event does to the connections. -/
theorem step_cases {A : App σ τ} {S : Server σ} {fuel : Nat} {s s' : Serv σ τ} {e : TelnetServer.Ev} {x : Option Exn} (h : TelnetServer.step A S fuel s e = .ok (some (s', x))) :
    (∃ tty l, e = .client tty ∧ s.accepting = true ∧ Net.start A S (TelnetServer.cliState s.sh ⟨⟨s.sh.color, tty, false⟩, []⟩) ⟨⟨s.sh.color, tty, false⟩, []⟩ = .ok (l, x) ∧
      s' = ⟨TelnetServer.left l.tel.proc.w, x.isNone, s.conns.map (TelnetServer.hears l.tel.proc.w.casts.flatten) ++ [l]⟩) ∨
    (e = .error ∧ s' = s) ∨
    (∃ j ev l l', e = .conn j ev ∧ s.conns[j]? = some l ∧ Net.step A S fuel (TelnetServer.seenLife s.sh l) ev = .ok (some (l', x)) ∧
      s' = { s with sh := TelnetServer.left l'.tel.proc.w, conns := (s.conns.map (TelnetServer.hears l'.tel.proc.w.casts.flatten)).set j l' }) := by
  cases e with
  | client tty =>
    simp only [TelnetServer.step] at h
    split at h
    · rename_i ha
      split at h
      · cases h
      · rename_i l y hl
        cases h
        exact .inl ⟨tty, l, rfl, ha, hl, rfl⟩
    · cases h
  | error =>
    simp only [TelnetServer.step] at h
    split at h <;> cases h
    exact .inr (.inl ⟨rfl, rfl⟩)
  | conn j ev =>
    simp only [TelnetServer.step] at h
    split at h
    · cases h
    · rename_i l hl
      split at h
      · cases h
      · cases h
      · rename_i l' y hs
        cases h
        exact .inr (.inr ⟨j, ev, l, l', rfl, hl, hs, rfl⟩)

theorem Seen.add_none (a : Seen) : a.add .none = a := by simp [Seen.add, Seen.none]
theorem Seen.add_assoc (a b c : Seen) : (a.add b).add c = a.add (b.add c) := by simp [Seen.add, List.append_assoc]

/-- All connections have been served as their histories say; those that do not exist have none. -/
def AllServed (s : Serv σ τ) (H : Nat → Seen) : Prop := (∀ j l, s.conns[j]? = some l → Served (H j) l) ∧ ∀ j, s.conns.length ≤ j → H j = .none

theorem allServed_step {A : App σ τ} {S : Server σ} {fuel : Nat} {s s' : Serv σ τ} {H : Nat → Seen} {e : TelnetServer.Ev} {x : Option Exn} (hs : AllServed s H) (he : Serial [e])
    (h : TelnetServer.step A S fuel s e = .ok (some (s', x))) : AllServed s' (fun j => (H j).add (nowTo s j e)) := by
  rcases step_cases h with ⟨tty, l, rfl, _, hl, rfl⟩ | ⟨rfl, rfl⟩ | ⟨i, ev, l, l', rfl, hl, hst, rfl⟩
  · refine ⟨fun j m hm => ?_, fun j hj => ?_⟩
    · simp only [nowTo, Seen.add_none]
      rw [List.getElem?_append] at hm
      split at hm
      · rename_i hlt
        simp only [List.length_map] at hlt
        rw [List.getElem?_map] at hm
        cases hc : s.conns[j]? with
        | none => rw [hc] at hm; cases hm
        | some c =>
          rw [hc] at hm
          cases hm
          exact served_hears _ (hs.1 j c hc)
      · rename_i hge
        simp only [List.length_map, Nat.not_lt] at hge
        cases hk : j - (List.map (TelnetServer.hears l.tel.proc.w.casts.flatten) s.conns).length with
        | zero =>
          rw [hk] at hm
          cases hm
          rw [hs.2 j hge]
          exact served_start hl (start_open hl)
        | succ n => rw [hk] at hm; simp at hm
    · simp only [nowTo, Seen.add_none]
      refine hs.2 j ?_
      simp only [List.length_append, List.length_map] at hj
      omega
  · exact ⟨fun j m hm => by simp only [nowTo, Seen.add_none]; exact hs.1 j m hm, fun j hj => by simp only [nowTo, Seen.add_none]; exact hs.2 j hj⟩
  · have hlt : i < s.conns.length := by
      rcases Nat.lt_or_ge i s.conns.length with h | h
      · exact h
      · rw [List.getElem?_eq_none h] at hl; cases hl
    refine ⟨fun j m hm => ?_, fun j hj => ?_⟩
    · by_cases hij : i = j
      · subst hij
        simp only [List.getElem?_set_self (show i < (s.conns.map _).length by simpa using hlt), Option.some.injEq] at hm
        subst hm
        have := served_step (served_seen s.sh (hs.1 i l hl)) (he i ev (by simp)) hst
        simp only [nowTo, if_true, hl]
        exact this
      · simp only [nowTo, if_neg hij, Seen.add_none]
        simp only [List.getElem?_set_ne hij, List.getElem?_map] at hm
        cases hc : s.conns[j]? with
        | none => rw [hc] at hm; cases hm
        | some c =>
          rw [hc] at hm
          cases hm
          exact served_hears _ (hs.1 j c hc)
    · simp only [List.length_set, List.length_map] at hj
      have hij : i ≠ j := by omega
      simp only [nowTo, if_neg hij, Seen.add_none]
      exact hs.2 j hj

theorem allServed_run {A : App σ τ} {S : Server σ} {fuel : Nat} (es : List TelnetServer.Ev) : ∀ {s s' : Serv σ τ} {H : Nat → Seen}, AllServed s H → Serial es → TelnetServer.run A S fuel es s = .ok (some s') →
    AllServed s' (fun j => (H j).add (story A S fuel j es s)) := by
  induction es with
  | nil =>
    intro s s' H hs _ h
    cases h
    simp only [story, Seen.add_none]
    exact hs
  | cons e es ih =>
    intro s s' H hs he h
    simp only [TelnetServer.run] at h
    cases hst : TelnetServer.step A S fuel s e with
    | error f => rw [hst] at h; cases h
    | ok r =>
      cases r with
      | none => rw [hst] at h; cases h
      | some r =>
        obtain ⟨s1, x⟩ := r
        rw [hst] at h
        have h1 := allServed_step hs (fun j ev hm => he j ev (by cases List.mem_singleton.1 hm; simp)) hst
        have h2 := ih h1 (fun j ev hm => he j ev (by simp [hm])) h
        simp only [story, hst]
        simpa only [Seen.add_assoc] using h2

/-- The data that client `j` has sent. -/
def sentBy (j : Nat) (es : List TelnetServer.Ev) : List Str :=
  es.filterMap (fun | .conn i (.arrive d) => if i = j then some d else none | _ => none)

theorem story_sent {A : App σ τ} {S : Server σ} {fuel : Nat} (j : Nat) (es : List TelnetServer.Ev) : ∀ {s s' : Serv σ τ}, TelnetServer.run A S fuel es s = .ok (some s') →
    (story A S fuel j es s).sent = sentBy j es := by
  induction es with
  | nil => intro s s' _; rfl
  | cons e es ih =>
    intro s s' h
    simp only [TelnetServer.run] at h
    cases hst : TelnetServer.step A S fuel s e with
    | error f => rw [hst] at h; cases h
    | ok r =>
      cases r with
      | none => rw [hst] at h; cases h
      | some r =>
        obtain ⟨s1, x⟩ := r
        rw [hst] at h
        simp only [story, hst, Seen.add, ih h]
        rcases step_cases hst with ⟨tty, l, rfl, _, hl, rfl⟩ | ⟨rfl, rfl⟩ | ⟨i, ev, l, l', rfl, hl, _, rfl⟩
        · rfl
        · rfl
        · by_cases hij : i = j
          · subst hij
            simp only [nowTo, if_true, hl]
            cases ev <;> simp [arrivals, sentBy]
          · simp only [nowTo, if_neg hij]
            cases ev <;> simp [sentBy, hij, Seen.none]

/-- **C99** A telnet server serves all its clients, each with what it has sent: at any time, for every client, the keys handled in its session and those in the queue are, in order, the ones that the data decoded for it say, and these
    data followed by the ones in the queue are the data it has sent, as long as its connection is open. The number of clients, what the others send, in which order the entries of different clients are executed, and what the
    commands do is arbitrary; one thread runs the scheduler. -/
theorem C99_served (A : App σ τ) (S : Server σ) (fuel : Nat) (sh : Sessions.Shared σ τ) (es : List TelnetServer.Ev) (s : Serv σ τ) (he : Serial es)
    (h : TelnetServer.run A S fuel es (TelnetServer.init sh) = .ok (some s)) (j : Nat) (l : Life σ τ) (hl : s.conns[j]? = some l) :
    let r := story A S fuel j es (TelnetServer.init sh)
    r.keys ++ keysIn l.queue = typedBy r.data ∧ (l.tel.proc.w.app.2 = true → r.data ++ readsIn l.queue = sentBy j es) := by
  have := (allServed_run es (H := fun _ => .none) ⟨(fun j l h => by cases h), fun _ _ => rfl⟩ he h).1 j l hl
  have e : (Seen.none).add (story A S fuel j es (TelnetServer.init sh)) = story A S fuel j es (TelnetServer.init sh) := by simp [Seen.add, Seen.none]
  simp only [e] at this
  exact ⟨this.keys, fun ho => (this.sent ho).trans (story_sent j es h)⟩

/-- **C99** In particular, when nothing of a connected client is in the queue, the keys handled in its session are those that it has typed. -/
theorem C99_idle (A : App σ τ) (S : Server σ) (fuel : Nat) (sh : Sessions.Shared σ τ) (es : List TelnetServer.Ev) (s : Serv σ τ) (he : Serial es)
    (h : TelnetServer.run A S fuel es (TelnetServer.init sh) = .ok (some s)) (j : Nat) (l : Life σ τ) (hl : s.conns[j]? = some l) (ho : l.tel.proc.w.app.2 = true) (hq : l.queue = []) :
    (story A S fuel j es (TelnetServer.init sh)).keys = typedBy (sentBy j es) := by
  obtain ⟨h1, h2⟩ := C99_served A S fuel sh es s he h j l hl
  have h2 := h2 ho
  rw [hq] at h1 h2
  simp only [keysIn, readsIn, List.filterMap_nil, List.append_nil] at h1 h2
  rw [h1, h2]

/-! ### The sessions exist when they are used -/

theorem step_error {A : App σ τ} {S : Server σ} {fuel : Nat} {l : Life σ τ} {e : Net.Ev} {f : Fault} (ho : Orderly l) (he : OneThread e) (h : Net.step A S fuel l e = .error f) :
    owned l.op l.queue = true ∧ ∃ k rest alive, l.queue = .key k :: rest ∧ Processor.keypressed (telnetApp A S.exitAction alive) fuel l.tel.proc k = .error f := by
  obtain ⟨⟨ks, hq⟩, hc⟩ := ho
  cases e with
  | arrive d => simp only [Net.step] at h; split at h <;> cases h
  | lost => simp only [Net.step] at h; split at h <;> cases h
  | exec i alive =>
    cases (show i = 0 from he)
    simp only [Net.step] at h
    cases hqq : l.queue with
    | nil => rw [hqq] at h; cases h
    | cons t rest =>
      have how : owned l.op (t :: rest) = true := by
        rcases hq with ⟨h1, _⟩ | ⟨_, ⟨_, h2⟩ | ⟨t, ht, h2⟩⟩
        · simp [owned, h1]
        · rw [hqq] at h2; cases h2
        · rw [← hqq]; simp [owned, h2, ht]
      rw [hqq] at h
      cases t with
      | key k =>
        refine ⟨how, k, rest, alive, rfl, ?_⟩
        have hrest : owned l.op rest = true := by simpa [owned, Task.owns] using how
        simp only [List.getElem?_cons_zero, List.eraseIdx_zero, List.tail_cons, hrest, if_true] at h
        split at h
        · rename_i f' hk; cases h; exact hk
        · split at h <;> cases h
      | read d =>
        simp only [List.getElem?_cons_zero, received_after] at h
        split at h <;> cases h
      | fail => simp only [List.getElem?_cons_zero] at h; cases h

/-- **C99** Undefined behaviour of the server occurs only when a key of a client is handled, in a session that exists, and it is that of the command processor in the state of the session (C20, C26, C27, C37); never because of what happens
    to other clients: their sessions have not been destroyed too early, accepting a client has defined behaviour, and so has the decoding of whatever is sent. -/
theorem C99_defined (A : App σ τ) (S : Server σ) (fuel : Nat) (sh : Sessions.Shared σ τ) (es : List TelnetServer.Ev) (he : Serial es) (f : Fault)
    (h : TelnetServer.run A S fuel es (TelnetServer.init sh) = .error f) :
    ∃ (pre : List TelnetServer.Ev) (s : Serv σ τ) (j : Nat) (l : Life σ τ), pre <+: es ∧ TelnetServer.run A S fuel pre (TelnetServer.init sh) = .ok (some s) ∧ s.conns[j]? = some l ∧ owned l.op l.queue = true ∧
      ∃ k rest alive, l.queue = .key k :: rest ∧ Processor.keypressed (telnetApp A S.exitAction alive) fuel (TelnetServer.seenLife s.sh l).tel.proc k = .error f := by
  have main : ∀ (es : List TelnetServer.Ev) (s0 : Serv σ τ) (H : Nat → Seen), AllServed s0 H → Serial es → TelnetServer.run A S fuel es s0 = .error f →
      ∃ (pre : List TelnetServer.Ev) (s : Serv σ τ) (j : Nat) (l : Life σ τ), pre <+: es ∧ TelnetServer.run A S fuel pre s0 = .ok (some s) ∧ s.conns[j]? = some l ∧ owned l.op l.queue = true ∧
      ∃ k rest alive, l.queue = .key k :: rest ∧ Processor.keypressed (telnetApp A S.exitAction alive) fuel (TelnetServer.seenLife s.sh l).tel.proc k = .error f := by
    intro es
    induction es with
    | nil => intro s0 H _ _ h; cases h
    | cons e es ih =>
      intro s0 H hs he h
      simp only [TelnetServer.run] at h
      have he1 : Serial [e] := fun j ev hm => he j ev (by cases List.mem_singleton.1 hm; simp)
      cases hst : TelnetServer.step A S fuel s0 e with
      | ok r =>
        rw [hst] at h
        cases r with
        | none => cases h
        | some r =>
          obtain ⟨s1, x⟩ := r
          obtain ⟨pre, s, j, l, ⟨t, ht⟩, hr, hrest⟩ := ih s1 _ (allServed_step hs he1 hst) (fun j ev hm => he j ev (by simp [hm])) h
          exact ⟨e :: pre, s, j, l, ⟨t, by simp [ht]⟩, by simp only [TelnetServer.run, hst]; exact hr, hrest⟩
      | error g =>
        rw [hst] at h
        cases h
        cases e with
        | client tty =>
          simp only [TelnetServer.step] at hst
          split at hst
          · obtain ⟨w1, y, _, _, w2, _, _, e⟩ := start_defined A S (TelnetServer.cliState s0.sh ⟨⟨s0.sh.color, tty, false⟩, []⟩) ⟨⟨s0.sh.color, tty, false⟩, []⟩
            rw [e] at hst
            cases hst
          · cases hst
        | error => simp only [TelnetServer.step] at hst; split at hst <;> cases hst
        | conn j ev =>
          simp only [TelnetServer.step] at hst
          split at hst
          · cases hst
          · rename_i l hl
            split at hst
            · rename_i f' hk
              cases hst
              obtain ⟨a1, k, rest, alive, a2, a3⟩ := step_error (served_seen s0.sh (hs.1 j l hl)).order (he1 j ev (by simp)) hk
              exact ⟨[], s0, j, l, by simp, rfl, hl, a1, k, rest, alive, a2, a3⟩
            · cases hst
            · cases hst
  exact main es _ (fun _ => .none) ⟨(fun j l h => by cases h), fun _ _ => rfl⟩ he h

/-! ### What the other clients can do to a client -/

/-- The user's code of the server does nothing but such things. -/
structure OnlyServer (A : App σ τ) (S : Server σ) (OK : Act → Prop) : Prop where
  app : A.Only OK
  exit : ∀ f, S.exitAction = some f → ∀ s, ∀ a ∈ (f s).acts, OK a

theorem OnlyServer.telnet {A : App σ τ} {S : Server σ} {OK : Act → Prop} (h : OnlyServer A S OK) (alive : Bool) : (telnetApp A S.exitAction alive).Only OK where
  handler f s v := h.app.handler f s.1 v
  exception f hf s l e := by
    simp only [Telnet.telnetApp] at hf
    cases hg : A.onException with
    | none => rw [hg] at hf; cases hf
    | some g => rw [hg] at hf; cases hf; exact h.app.exception g hg s.1 l e
  wrong f hf s l := by
    simp only [Telnet.telnetApp] at hf
    cases hg : A.onWrong with
    | none => rw [hg] at hf; cases hf
    | some g => rw [hg] at hf; cases hf; exact h.app.wrong g hg s.1 l
  exitSession f hf s := by
    cases hf
    unfold Telnet.exitAction
    cases hg : S.exitAction with
    | none => intro a ha; cases ha
    | some g =>
      simp only
      split
      · exact h.exit g hg s.1
      · split
        · exact h.exit g hg s.1
        · split
          · exact h.exit g hg s.1
          · exact h.exit g hg s.1
  exitGlobal f hf s := by
    simp only [Telnet.telnetApp] at hf
    cases hg : A.exitGlobal with
    | none => rw [hg] at hf; cases hf
    | some g => rw [hg] at hf; cases hf; exact h.app.exitGlobal g hg s.1
  enterSession f hf s := by cases hf
  enterGlobal f hf s := by
    simp only [Telnet.telnetApp] at hf
    cases hg : A.enterGlobal with
    | none => rw [hg] at hf; cases hf
    | some g => rw [hg] at hf; cases hf; exact h.app.enterGlobal g hg s.1

/-- A relation that holds for the parts of what a session does holds for an event of a session. -/
theorem step_frame {A : App σ τ} {S : Server σ} {fuel : Nat} {R : World (σ × Bool) τ → World (σ × Bool) τ → Prop} (C : ∀ alive, Closed (telnetApp A S.exitAction alive) R)
    (hh : ∀ (w : World (σ × Bool) τ) h, R w { w with hist := h }) (hio : ∀ (w : World (σ × Bool) τ) io, io.style.color = w.io.style.color → R w { w with io := io })
    {l l' : Life σ τ} {e : Net.Ev} {x : Option Exn} (h : Net.step A S fuel l e = .ok (some (l', x))) : R l.tel.proc.w l'.tel.proc.w := by
  cases e with
  | arrive d => simp only [Net.step] at h; split at h <;> cases h; exact (C true).refl _
  | lost => simp only [Net.step] at h; split at h <;> cases h; exact (C true).refl _
  | exec i alive =>
    simp only [Net.step] at h
    split at h
    · cases h
    · split at h
      · split at h
        · cases h
        · rename_i q y hk
          have := keypressed_frame (C alive) hh hio hk
          split at h <;> cases h <;> exact this
      · cases h
    · split at h
      · rw [received_after] at h
        cases h
        exact hio _ _ rfl
      · cases h; exact (C true).refl _
    · cases h; exact (C true).refl _

theorem start_frame {A : App σ τ} {S : Server σ} {R : World (σ × Bool) τ → World (σ × Bool) τ → Prop} (C : ∀ alive, Closed (telnetApp A S.exitAction alive) R)
    (hio : ∀ (w : World (σ × Bool) τ) io, io.style.color = w.io.style.color → R w { w with io := io })
    {w : World σ τ} {io : Io} {l : Life σ τ} {x : Option Exn} (h : Net.start A S w io = .ok (l, x)) : R (greeted A S w io) l.tel.proc.w := by
  obtain ⟨w1, y, he, _, w2, h1, h2, e⟩ := start_defined A S w io
  rw [h] at e
  cases e
  have q := closed_enter (C true) (greeted A S w io)
  rw [he] at q
  cases x with
  | some e => rw [h2 (by simp)]; exact q
  | none =>
    obtain ⟨io', e1, e2⟩ := prompt_io (h1 rfl)
    simp only
    rw [e1]
    exact (C true).trans q (hio _ _ e2)

/-- Texts appear on the client's screen. -/
def told (texts : List Str) (l : Life σ τ) : Life σ τ :=
  { l with tel := { l.tel with proc := { l.tel.proc with w := { l.tel.proc.w with io := { l.tel.proc.w.io with out := l.tel.proc.w.io.out ++ texts.flatten } } } } }

theorem told_nil (l : Life σ τ) : told [] l = l := by simp [told]
theorem told_told (t t' : List Str) (l : Life σ τ) : told t' (told t l) = told (t ++ t') l := by simp [told, List.append_assoc]

theorem hears_told (texts : List Str) (l : Life σ τ) : TelnetServer.hears texts.flatten l = if owned l.op l.queue then told texts l else l := rfl

/-- An event that does not concern client `j`. -/
theorem other_event {A : App σ τ} {S : Server σ} {fuel : Nat} {P : Str → Prop} (hA : OnlyServer A S (Says P)) {s s' : Serv σ τ} {e : TelnetServer.Ev} {x : Option Exn}
    (h : TelnetServer.step A S fuel s e = .ok (some (s', x))) {j : Nat} {l : Life σ τ} (hl : s.conns[j]? = some l) (hj : ∀ ev, e ≠ .conn j ev) :
    ∃ texts : List Str, (∀ t ∈ texts, P t) ∧ s'.conns[j]? = some (told texts l) := by
  have C := fun alive => closed_casts (hA.telnet alive)
  have hlt : j < s.conns.length := by
    rcases Nat.lt_or_ge j s.conns.length with h | h
    · exact h
    · rw [List.getElem?_eq_none h] at hl; cases hl
  have fin : ∀ texts : List Str, (∀ t ∈ texts, P t) → ∃ texts' : List Str, (∀ t ∈ texts', P t) ∧ some (TelnetServer.hears texts.flatten l) = some (told texts' l) := by
    intro texts ht
    rw [hears_told]
    split
    · exact ⟨texts, ht, rfl⟩
    · exact ⟨[], by simp, by rw [told_nil]⟩
  rcases step_cases h with ⟨tty, l1, rfl, _, hl1, rfl⟩ | ⟨rfl, rfl⟩ | ⟨i, ev, l1, l', rfl, hl1, hst, rfl⟩
  · obtain ⟨t, e, p⟩ := start_frame C (fun _ _ _ => casts_same rfl) hl1
    have e : l1.tel.proc.w.casts = t := by rw [e]; rfl
    obtain ⟨t', p', e'⟩ := fin t p
    refine ⟨t', p', ?_⟩
    simp only
    rw [List.getElem?_append_left (by simpa using hlt), List.getElem?_map, hl, e]
    exact e'
  · exact ⟨[], by simp, by rw [told_nil]; exact hl⟩
  · have hij : i ≠ j := fun e => hj ev (by rw [e])
    obtain ⟨t, e, p⟩ := step_frame C (fun _ _ => casts_same rfl) (fun _ _ _ => casts_same rfl) hst
    have e : l'.tel.proc.w.casts = t := by rw [e]; rfl
    obtain ⟨t', p', e'⟩ := fin t p
    refine ⟨t', p', ?_⟩
    simp only
    rw [List.getElem?_set_ne hij, List.getElem?_map, hl, e]
    exact e'

/-- **C99** Whatever the other clients send, whenever they connect and disconnect, and whatever is executed for them: for a client `j` nothing changes (its connection, its entries in the queue, the state of the decoder and of the line editor,
    its menu, its history, its exit state) but that texts appear on its screen which user code has written to `Cli::cout()`. (They satisfy every `P` that is satisfied by all texts that user code may write there.) -/
theorem C99_isolated (A : App σ τ) (S : Server σ) (fuel : Nat) (P : Str → Prop) (hA : OnlyServer A S (Says P)) (j : Nat) (es : List TelnetServer.Ev) (hj : ∀ ev, .conn j ev ∉ es) :
    ∀ (s s' : Serv σ τ) (l : Life σ τ), s.conns[j]? = some l → TelnetServer.run A S fuel es s = .ok (some s') →
    ∃ texts : List Str, (∀ t ∈ texts, P t) ∧ s'.conns[j]? = some (told texts l) := by
  induction es with
  | nil => intro s s' l hl h; cases h; exact ⟨[], by simp, by rw [told_nil]; exact hl⟩
  | cons e es ih =>
    intro s s' l hl h
    simp only [TelnetServer.run] at h
    cases hst : TelnetServer.step A S fuel s e with
    | error f => rw [hst] at h; cases h
    | ok r =>
      cases r with
      | none => rw [hst] at h; cases h
      | some r =>
        obtain ⟨s1, x⟩ := r
        rw [hst] at h
        obtain ⟨t1, p1, h1⟩ := other_event hA hst hl (fun ev he => hj ev (by simp [he]))
        obtain ⟨t2, p2, h2⟩ := ih (fun ev hm => hj ev (by simp [hm])) s1 s' _ h1 h
        refine ⟨t1 ++ t2, ?_, by rw [h2, told_told]⟩
        intro t ht
        rcases List.mem_append.1 ht with h | h
        · exact p1 t h
        · exact p2 t h

/-! ### Non-interference -/

/-- What the user's code of the server does and throws does not depend on the state of the application. -/
structure BlindServer (A : App σ τ) (S : Server σ) : Prop where
  app : A.Blind
  exit : ∀ f, S.exitAction = some f → ∀ s s', (f s).acts = (f s').acts ∧ (f s).exn = (f s').exn

/-- Both connected or both not. -/
def SameLink (s s' : σ × Bool) : Prop := s.2 = s'.2

theorem BlindServer.telnet {A : App σ τ} {S : Server σ} (h : BlindServer A S) (alive : Bool) : (telnetApp A S.exitAction alive).BlindTo SameLink where
  handler f s s' v hq := ⟨(h.app.handler f s.1 s'.1 v).1, (h.app.handler f s.1 s'.1 v).2, hq⟩
  exception f hf s s' l e hq := by
    simp only [Telnet.telnetApp] at hf
    cases hg : A.onException with
    | none => rw [hg] at hf; cases hf
    | some g => rw [hg] at hf; cases hf; exact ⟨(h.app.exception g hg s.1 s'.1 l e).1, (h.app.exception g hg s.1 s'.1 l e).2, hq⟩
  wrong f hf s s' l hq := by
    simp only [Telnet.telnetApp] at hf
    cases hg : A.onWrong with
    | none => rw [hg] at hf; cases hf
    | some g => rw [hg] at hf; cases hf; exact ⟨(h.app.wrong g hg s.1 s'.1 l).1, (h.app.wrong g hg s.1 s'.1 l).2, hq⟩
  exitSession f hf s s' hq := by
    cases hf
    unfold Telnet.exitAction
    cases hg : S.exitAction with
    | none => exact ⟨rfl, rfl, hq⟩
    | some g =>
      obtain ⟨h1, h2⟩ := h.exit g hg s.1 s'.1
      simp only [h2]
      split
      · exact ⟨h1, rfl, hq⟩
      · rw [show s'.2 = s.2 from hq.symm]
        split
        · exact ⟨h1, rfl, rfl⟩
        · split
          · exact ⟨h1, rfl, rfl⟩
          · exact ⟨h1, rfl, rfl⟩
  exitGlobal f hf s s' hq := by
    simp only [Telnet.telnetApp] at hf
    cases hg : A.exitGlobal with
    | none => rw [hg] at hf; cases hf
    | some g => rw [hg] at hf; cases hf; exact ⟨(h.app.exitGlobal g hg s.1 s'.1).1, (h.app.exitGlobal g hg s.1 s'.1).2, hq⟩
  enterSession f hf s := by cases hf
  enterGlobal f hf s s' hq := by
    simp only [Telnet.telnetApp] at hf
    cases hg : A.enterGlobal with
    | none => rw [hg] at hf; cases hf
    | some g => rw [hg] at hf; cases hf; exact ⟨(h.app.enterGlobal g hg s.1 s'.1).1, (h.app.enterGlobal g hg s.1 s'.1).2, hq⟩
  storage := h.app.storage

/-- Sessions that differ at most in the state of the application and the storage. -/
structure LikeLife (l m : Life σ τ) : Prop where
  proc : LikeProc SameLink l.tel.proc m.tel.proc
  rx : m.tel.rx = l.tel.rx
  step : m.tel.step = l.tel.step
  keys : m.tel.queue = l.tel.queue
  queue : m.queue = l.queue
  op : m.op = l.op

theorem likeLife_trans {l m n : Life σ τ} (h1 : LikeLife l m) (h2 : LikeLife m n) : LikeLife l n := by
  refine ⟨⟨?_, h2.proc.term.trans h1.proc.term, h2.proc.active.trans h1.proc.active⟩, h2.rx.trans h1.rx, h2.step.trans h1.step, h2.keys.trans h1.keys, h2.queue.trans h1.queue, h2.op.trans h1.op⟩
  obtain ⟨s, t, hq, e⟩ := h1.proc.w
  obtain ⟨s', t', hq', e'⟩ := h2.proc.w
  rw [e] at hq' e'
  exact ⟨s', t', hq.trans hq', e'⟩

theorem likeLife_symm {l m : Life σ τ} (h : LikeLife l m) : LikeLife m l := by
  refine ⟨⟨?_, h.proc.term.symm, h.proc.active.symm⟩, h.rx.symm, h.step.symm, h.keys.symm, h.queue.symm, h.op.symm⟩
  obtain ⟨s, t, hq, e⟩ := h.proc.w
  rw [e]
  exact ⟨_, _, hq.symm, rfl⟩

/-- An event of a session has the same effects on both. -/
theorem like_step {A : App σ τ} {S : Server σ} (hB : BlindServer A S) {fuel : Nat} {l m l' : Life σ τ} {e : Net.Ev} {x : Option Exn} (h : LikeLife l m) (hs : Net.step A S fuel l e = .ok (some (l', x))) :
    ∃ m', Net.step A S fuel m e = .ok (some (m', x)) ∧ LikeLife l' m' := by
  have hop : m.tel.proc.w.app.2 = l.tel.proc.w.app.2 := h.proc.w.app.symm
  cases e with
  | arrive d =>
    simp only [Net.step, h.op] at hs ⊢
    split at hs
    · rename_i ho
      rw [if_pos ho]
      cases hs
      exact ⟨{ m with queue := m.queue ++ [.read d], op := false }, rfl, h.proc, h.rx, h.step, h.keys, by simp only [h.queue], rfl⟩
    · cases hs
  | lost =>
    simp only [Net.step, h.op] at hs ⊢
    split at hs
    · rename_i ho
      rw [if_pos ho]
      cases hs
      exact ⟨{ m with queue := m.queue ++ [.fail], op := false }, rfl, h.proc, h.rx, h.step, h.keys, by simp only [h.queue], rfl⟩
    · cases hs
  | exec i alive =>
    simp only [Net.step, h.queue, h.op, hop] at hs ⊢
    split at hs
    · cases hs
    · rename_i k hk
      split at hs
      · rename_i hown
        rw [if_pos hown]
        rcases alike_keypressed (hB.telnet alive) fuel h.proc k with ⟨f, e1, e2⟩ | ⟨p, q, y, e1, e2, hp⟩
        · rw [e1] at hs; cases hs
        · rw [e1] at hs
          rw [e2]
          simp only at hs ⊢
          rw [show q.w.app.2 = p.w.app.2 from hp.w.app.symm]
          split at hs
          · rename_i hc
            rw [if_pos hc]
            cases hs
            exact ⟨_, rfl, hp, h.rx, h.step, h.keys, rfl, rfl⟩
          · rename_i hc
            rw [if_neg hc]
            cases hs
            exact ⟨_, rfl, hp, h.rx, h.step, h.keys, rfl, rfl⟩
      · cases hs
    · rename_i d hk
      rw [received_after] at hs ⊢
      split at hs
      · rename_i ho
        rw [if_pos ho]
        cases hs
        refine ⟨_, rfl, ⟨?_, h.proc.term, h.proc.active⟩, ?_, ?_, rfl, ?_, rfl⟩
        · simp only [after, h.rx, h.step]
          exact like_put h.proc.w _
        · simp only [after, h.rx]
        · simp only [after, h.rx, h.step]
        · simp only [after, h.rx, h.step, h.keys]
      · rename_i ho
        rw [if_neg ho]
        cases hs
        exact ⟨_, rfl, h.proc, h.rx, h.step, h.keys, rfl, rfl⟩
    · cases hs
      exact ⟨_, rfl, h.proc, h.rx, h.step, h.keys, rfl, rfl⟩

/-- The states of the server are the same to client `j`. -/
def SameAt (j : Nat) (s t : Serv σ τ) : Prop :=
  ∃ l m, s.conns[j]? = some l ∧ t.conns[j]? = some m ∧ LikeLife (TelnetServer.seenLife s.sh l) (TelnetServer.seenLife t.sh m)

/-- An event that does not concern client `j`. -/
theorem sameAt_other {A : App σ τ} {S : Server σ} {fuel : Nat} (hA : OnlyServer A S IsOut) {s s' : Serv σ τ} {e : TelnetServer.Ev} {x : Option Exn}
    (h : TelnetServer.step A S fuel s e = .ok (some (s', x))) {j : Nat} (hl : ∃ l, s.conns[j]? = some l) (hj : ∀ ev, e ≠ .conn j ev) : SameAt j s s' := by
  obtain ⟨l, hl⟩ := hl
  have hA' : OnlyServer A S (Says fun _ => False) := ⟨only_mono (fun _ => says_isOut) hA.app, fun f hf s a ha => says_isOut (hA.exit f hf s a ha)⟩
  obtain ⟨texts, p, e1⟩ := other_event hA' h hl hj
  have : texts = [] := by
    cases texts with
    | nil => rfl
    | cons t ts => exact (p t (by simp)).elim
  subst this
  rw [told_nil] at e1
  refine ⟨l, l, hl, e1, ?_⟩
  have C := fun alive => closed_modest (hA.telnet alive)
  have sh : s'.sh.tree = s.sh.tree ∧ s'.sh.dis = s.sh.dis ∧ s'.sh.used = s.sh.used ∧ s'.sh.gen = s.sh.gen ∧ s'.sh.color = s.sh.color := by
    rcases step_cases h with ⟨tty, l1, rfl, _, hl1, rfl⟩ | ⟨rfl, rfl⟩ | ⟨i, ev, l1, l', rfl, hl1, hst, rfl⟩
    · have m := start_frame C (fun _ _ hc => ⟨rfl, rfl, rfl, rfl, hc⟩) hl1
      exact ⟨m.tree, m.dis, m.used, m.gen, m.color⟩
    · exact ⟨rfl, rfl, rfl, rfl, rfl⟩
    · have m := step_frame C (fun _ _ => ⟨rfl, rfl, rfl, rfl, rfl⟩) (fun _ _ hc => ⟨rfl, rfl, rfl, rfl, hc⟩) hst
      exact ⟨m.tree, m.dis, m.used, m.gen, m.color⟩
  obtain ⟨a1, a2, a3, a4, a5⟩ := sh
  refine ⟨⟨⟨(s'.sh.app, l.tel.proc.w.app.2), s'.sh.storage, rfl, ?_⟩, rfl, rfl⟩, rfl, rfl, rfl, rfl, rfl⟩
  simp only [TelnetServer.seenLife, TelnetServer.seen, a1, a2, a3, a4, a5]

/-- An event of client `j`. -/
theorem sameAt_self {A : App σ τ} {S : Server σ} {fuel : Nat} (hB : BlindServer A S) {s s' t : Serv σ τ} {j : Nat} {ev : Net.Ev} {x : Option Exn} (h : TelnetServer.step A S fuel s (.conn j ev) = .ok (some (s', x)))
    (hst : SameAt j s t) : ∃ t', TelnetServer.step A S fuel t (.conn j ev) = .ok (some (t', x)) ∧ SameAt j s' t' := by
  obtain ⟨l, m, hl, hm, hlm⟩ := hst
  rcases step_cases h with ⟨_, _, he, _⟩ | ⟨he, _⟩ | ⟨i, ev', l1, l', he, hl1, hst, rfl⟩
  · cases he
  · cases he
  · cases he
    rw [hl] at hl1
    cases hl1
    obtain ⟨m', h1, h2⟩ := like_step hB hlm hst
    refine ⟨{ t with sh := TelnetServer.left m'.tel.proc.w, conns := (t.conns.map (TelnetServer.hears m'.tel.proc.w.casts.flatten)).set j m' }, ?_, l', m', ?_, ?_, ?_⟩
    · simp only [TelnetServer.step, hm, h1]
    · have : j < s.conns.length := by
        rcases Nat.lt_or_ge j s.conns.length with h | h
        · exact h
        · rw [List.getElem?_eq_none h] at hl; cases hl
      exact List.getElem?_set_self (by simpa using this)
    · have : j < t.conns.length := by
        rcases Nat.lt_or_ge j t.conns.length with h | h
        · exact h
        · rw [List.getElem?_eq_none h] at hm; cases hm
      exact List.getElem?_set_self (by simpa using this)
    · refine ⟨⟨?_, h2.proc.term, h2.proc.active⟩, h2.rx, h2.step, h2.keys, h2.queue, h2.op⟩
      obtain ⟨a, b, hq, e⟩ := h2.proc.w
      refine ⟨a, b, hq, ?_⟩
      simp only [TelnetServer.seenLife, TelnetServer.seen, TelnetServer.left, e]

/-- Two sessions of a client are the same to it. -/
structure SameClient (l m : Life σ τ) : Prop where
  screen : m.tel.proc.w.io.out = l.tel.proc.w.io.out
  line : m.tel.proc.term = l.tel.proc.term
  history : m.tel.proc.w.hist = l.tel.proc.w.hist
  menu : m.tel.proc.w.current = l.tel.proc.w.current
  exit : m.tel.proc.w.exit = l.tel.proc.w.exit
  executed : m.tel.proc.w.log = l.tel.proc.w.log
  connected : m.tel.proc.w.app.2 = l.tel.proc.w.app.2
  rx : m.tel.rx = l.tel.rx
  step : m.tel.step = l.tel.step
  queue : m.queue = l.queue
  op : m.op = l.op

/-- The events of client `j`. -/
def eventsOf (j : Nat) (es : List TelnetServer.Ev) : List TelnetServer.Ev := es.filter (fun | .conn i _ => i == j | _ => false)

/-- **C99** If the user's code does no more than write to the stream it is given and change the state of the application, and what it writes and throws does not depend on this state, a client sees on its screen what it would see if it were the
    only one: whatever the other clients do in between, its screen, line, history, menu, exit state, the record of what was executed for it, and its connection are those that result from what it has sent itself. -/
theorem C99_alone (A : App σ τ) (S : Server σ) (fuel : Nat) (hA : OnlyServer A S IsOut) (hB : BlindServer A S) (j : Nat) (es : List TelnetServer.Ev) (s s' : Serv σ τ) (l : Life σ τ) (hl : s.conns[j]? = some l)
    (h : TelnetServer.run A S fuel es s = .ok (some s')) :
    ∃ t l' m', TelnetServer.run A S fuel (eventsOf j es) s = .ok (some t) ∧ s'.conns[j]? = some l' ∧ t.conns[j]? = some m' ∧ SameClient l' m' := by
  have key : ∀ (es : List TelnetServer.Ev) (s t s' : Serv σ τ), SameAt j s t → TelnetServer.run A S fuel es s = .ok (some s') →
      ∃ t', TelnetServer.run A S fuel (eventsOf j es) t = .ok (some t') ∧ SameAt j s' t' := by
    intro es
    induction es with
    | nil => intro s t s' hst h; cases h; exact ⟨t, rfl, hst⟩
    | cons e es ih =>
      intro s t s' hst h
      simp only [TelnetServer.run] at h
      cases hs : TelnetServer.step A S fuel s e with
      | error f => rw [hs] at h; cases h
      | ok r =>
        cases r with
        | none => rw [hs] at h; cases h
        | some r =>
          obtain ⟨s1, x⟩ := r
          rw [hs] at h
          simp only at h
          by_cases hj : ∃ ev, e = .conn j ev
          · obtain ⟨ev, rfl⟩ := hj
            obtain ⟨t1, h1, h2⟩ := sameAt_self hB hs hst
            obtain ⟨t', h3, h4⟩ := ih s1 t1 s' h2 h
            refine ⟨t', ?_, h4⟩
            simp only [eventsOf, List.filter_cons, BEq.rfl, if_true, TelnetServer.run, h1]
            exact h3
          · have hj' : ∀ ev, e ≠ .conn j ev := fun ev he => hj ⟨ev, he⟩
            obtain ⟨l, m, a1, a2, a3⟩ := hst
            obtain ⟨l0, l1, b1, b2, b3⟩ := sameAt_other hA hs ⟨l, a1⟩ hj'
            rw [a1] at b1
            cases b1
            obtain ⟨t', h3, h4⟩ := ih s1 t s' ⟨l1, m, b2, a2, likeLife_trans (likeLife_symm b3) a3⟩ h
            refine ⟨t', ?_, h4⟩
            have : eventsOf j (e :: es) = eventsOf j es := by
              cases e with
              | client tty => rfl
              | error => rfl
              | conn i ev =>
                have : i ≠ j := fun e => hj' ev (by rw [e])
                simp [eventsOf, List.filter_cons, this]
            rw [this]
            exact h3
  obtain ⟨t, h1, l', m', h2, h3, h4⟩ := key es s s s' ⟨l, l, hl, hl, ⟨⟨⟨_, _, rfl, rfl⟩, rfl, rfl⟩, rfl, rfl, rfl, rfl, rfl⟩⟩ h
  refine ⟨t, l', m', h1, h2, h3, ?_⟩
  obtain ⟨a, b, hq, e⟩ := h4.proc.w
  have f : ∀ {α : Type} (g : World (σ × Bool) τ → α), g (TelnetServer.seenLife t.sh m').tel.proc.w = g { (TelnetServer.seenLife s'.sh l').tel.proc.w with app := a, storage := b } := fun g => by rw [e]
  exact ⟨f (·.io.out), h4.proc.term, f (·.hist), f (·.current), f (·.exit), f (·.log), h4.proc.w.app.symm, h4.rx, h4.step, h4.queue, h4.op⟩

/-! ### Accepting -/

/-- **C99** As long as the enter action of the `Cli` does not throw, the server goes on accepting clients whatever the clients do and however the commands end, and every client that connects gets a session. -/
theorem C99_accepts (A : App σ τ) (S : Server σ) (fuel : Nat) (hx : ∀ f s, A.enterGlobal = some f → (f s).exn = none) (es : List TelnetServer.Ev) : ∀ (s s' : Serv σ τ), s.accepting = true →
    TelnetServer.run A S fuel es s = .ok (some s') → s'.accepting = true ∧ s'.conns.length = s.conns.length + (es.filter (fun | .client _ => true | _ => false)).length := by
  induction es with
  | nil => intro s s' ha h; cases h; exact ⟨ha, rfl⟩
  | cons e es ih =>
    intro s s' ha h
    simp only [TelnetServer.run] at h
    cases hs : TelnetServer.step A S fuel s e with
    | error f => rw [hs] at h; cases h
    | ok r =>
      cases r with
      | none => rw [hs] at h; cases h
      | some r =>
        obtain ⟨s1, x⟩ := r
        rw [hs] at h
        simp only at h
        rcases step_cases hs with ⟨tty, l1, rfl, _, hl1, rfl⟩ | ⟨rfl, rfl⟩ | ⟨i, ev, l1, l', rfl, hl1, hst, rfl⟩
        · have hn : x = none := by
            obtain ⟨w1, y, _, hy, w2, _, _, e⟩ := start_defined A S (TelnetServer.cliState s.sh ⟨⟨s.sh.color, tty, false⟩, []⟩) ⟨⟨s.sh.color, tty, false⟩, []⟩
            rw [hl1] at e
            cases e
            rw [hy]
            unfold does
            cases hg : A.enterGlobal with
            | none => rfl
            | some f => exact hx f _ hg
          subst hn
          obtain ⟨h1, h2⟩ := ih _ s' rfl h
          refine ⟨h1, ?_⟩
          rw [h2]
          simp [List.filter_cons]
          omega
        · obtain ⟨h1, h2⟩ := ih _ s' ha h
          exact ⟨h1, by rw [h2]; simp [List.filter_cons]⟩
        · obtain ⟨h1, h2⟩ := ih { s with sh := TelnetServer.left l'.tel.proc.w, conns := (s.conns.map (TelnetServer.hears l'.tel.proc.w.casts.flatten)).set i l' } s' ha h
          exact ⟨h1, by rw [h2]; simp [List.filter_cons]⟩

/-- **C99** So from the beginning on, whatever has happened, a further client can connect and gets a session, beside the others; and if accepting a client fails, the server goes on as if nothing had happened. -/
theorem C99_open (A : App σ τ) (S : Server σ) (fuel : Nat) (hx : ∀ f s, A.enterGlobal = some f → (f s).exn = none) (sh : Sessions.Shared σ τ) (es : List TelnetServer.Ev) (s : Serv σ τ)
    (h : TelnetServer.run A S fuel es (TelnetServer.init sh) = .ok (some s)) :
    TelnetServer.step A S fuel s .error = .ok (some (s, none)) ∧ ∀ tty, ∃ s', TelnetServer.step A S fuel s (.client tty) = .ok (some (s', none)) ∧ s'.conns.length = s.conns.length + 1 := by
  have ha := (C99_accepts A S fuel hx es _ s rfl h).1
  refine ⟨by simp [TelnetServer.step, ha], fun tty => ?_⟩
  obtain ⟨w1, y, _, hy, w2, _, _, e⟩ := start_defined A S (TelnetServer.cliState s.sh ⟨⟨s.sh.color, tty, false⟩, []⟩) ⟨⟨s.sh.color, tty, false⟩, []⟩
  have hn : y = none := by
    rw [hy]
    unfold does
    cases hg : A.enterGlobal with
    | none => rfl
    | some f => exact hx f _ hg
  subst hn
  simp only [TelnetServer.step, ha, e, if_true]
  exact ⟨_, rfl, by simp⟩

/-! ### Concrete cases -/

def shared0 : Sessions.Shared (List Nat) (List Str) := Sessions.shared Sample.world

/-- `n` entries of client `j` are executed. -/
def serve (n : Nat) (j : Nat) : List TelnetServer.Ev := List.replicate n (.conn j (.exec 0 true))

/-- What can be seen of the clients: the keys handled, the number of entries in the queue, whether data are awaited, the line, the menu and the number of bytes written. -/
def clients (A : App (List Nat) (List Str)) (es : List TelnetServer.Ev) : Option (List ((List Key × Nat × Bool) × (Str × Nat × Nat))) :=
  match TelnetServer.run A server0 9 es (TelnetServer.init shared0) with
  | .ok (some s) => some (s.conns.zipIdx.map (fun (l, j) => (((story A server0 9 j es (TelnetServer.init shared0)).keys, l.queue.length, l.op), (l.tel.proc.term.line, l.tel.proc.w.current, l.tel.proc.w.io.out.length))))
  | _ => none

/-- Two clients at the same time. -/
def busy : List TelnetServer.Ev :=
  [.client false, .client false, .conn 0 (.arrive bs!"sub\r\n"), .conn 1 (.arrive bs!"an")] ++ serve 1 1 ++ serve 2 0 ++ serve 1 1 ++ serve 3 0 ++ [.conn 1 .lost, .conn 0 (.arrive bs!"g")]

example : clients Sample.app busy = some [(([.ascii 115, .ascii 117, .ascii 98, .ret], 1, false), ([], 3, 28)), (([.ascii 97], 2, false), (bs!"a", 0, 19))] := by decide +kernel

example : Serial busy := by
  intro j e h
  simp only [busy, serve, List.replicate, List.append_assoc, List.cons_append, List.nil_append, List.mem_cons, List.not_mem_nil, or_false, reduceCtorEq, false_or, TelnetServer.Ev.conn.injEq] at h
  rcases h with ⟨_, rfl⟩ | ⟨_, rfl⟩ | ⟨_, rfl⟩ | ⟨_, rfl⟩ | ⟨_, rfl⟩ | ⟨_, rfl⟩ | ⟨_, rfl⟩ | ⟨_, rfl⟩ | ⟨_, rfl⟩ | ⟨_, rfl⟩ | ⟨_, rfl⟩ <;> first | rfl | trivial

/-- The premises of `C99_alone`. -/
example : OnlyServer echo server0 IsOut ∧ BlindServer echo server0 := by
  refine ⟨⟨⟨?_, ?_, ?_, ?_, ?_, ?_, ?_⟩, ?_⟩, ⟨⟨?_, ?_, ?_, ?_, ?_, ?_, ?_, fun _ _ _ => rfl⟩, ?_⟩⟩
  · intro f s v a ha; cases List.mem_singleton.1 ha; exact ⟨_, rfl⟩
  · intro f h; cases h
  · intro f h; cases h
  · intro f h s a ha; cases h; cases ha
  · intro f h; cases h
  · intro f h; cases h
  · intro f h; cases h
  · intro f h s a ha; cases h; cases ha
  · intro f s s' v; exact ⟨rfl, rfl⟩
  · intro f h; cases h
  · intro f h; cases h
  · intro f h s s'; cases h; exact ⟨rfl, rfl⟩
  · intro f h; cases h
  · intro f h; cases h
  · intro f h; cases h
  · intro f h s s'; cases h; exact ⟨rfl, rfl⟩

/-- Its commands write to `Cli::cout()`. -/
def loud : App (List Nat) (List Str) := { Sample.app with handler := fun fn s _ => ⟨fn :: s, [.cout bs!"hi"], none⟩ }

/-- Client 1 has typed a letter; then client 0 runs a command, and two bytes appear on the screen of client 1, whose line is as before. -/
example : clients loud ([.client false, .client false, .conn 1 (.arrive bs!"a")] ++ serve 2 1 ++ [.conn 0 (.arrive bs!"any\r\n")] ++ serve 4 0) =
      some [(([.ascii 97, .ascii 110, .ascii 121], 1, true), (bs!"any", 0, 21)), (([.ascii 97], 0, true), (bs!"a", 0, 19))] := by decide +kernel

example : clients loud ([.client false, .client false, .conn 1 (.arrive bs!"a")] ++ serve 2 1 ++ [.conn 0 (.arrive bs!"any\r\n")] ++ serve 5 0) =
      some [(([.ascii 97, .ascii 110, .ascii 121, .ret], 0, true), ([], 0, 30)), (([.ascii 97], 0, true), (bs!"a", 0, 21))] := by decide +kernel

/-- Undefined behaviour as in `C99_defined`: client 0 is in the menu `sub`, client 1 removes it with the command `drop`, and client 0 presses return. -/
example : (match TelnetServer.run Sample.app server0 9 ([.client false, .client false, .conn 0 (.arrive bs!"sub\r\n"), .conn 1 (.arrive bs!"sub drop\r\n")] ++ serve 5 0 ++ serve 10 1 ++ [.conn 0 (.arrive bs!"\r\n")] ++ serve 2 0) (TelnetServer.init shared0) with
    | .error f => some f
    | .ok _ => none) = some (.ub .dangling) := by decide +kernel

end Verif.Props
