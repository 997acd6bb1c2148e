import Verif.Model.Complete
import Verif.Props.Program
import Verif.Props.TelnetServer

set_option linter.unusedSimpArgs false

/-!
# Property C101: the program with a local session and a telnet server
-/

namespace Verif.Props
open Spec
open Keyboard (Kb decode)
open Terminal (Key)
open TelnetServer (Serv)
open Net (Life Task owned)
open Telnet (Server telnetApp)

variable {σ τ α : Type}

/-! ### After the scheduler has been stopped -/

/-- Nothing has been executed between the two states: what is shared, the local session and the sessions of the clients are the same, but that the latter may have been destroyed. -/
structure Frozen (s s' : Complete.St σ τ α) : Prop where
  shared : s'.serv.sh = s.serv.sh
  proc : s'.loc.proc = s.loc.proc
  handled : s'.loc.handled = s.loc.handled
  conns : s'.serv.conns = if s'.phase = .over then s.serv.conns.map Complete.dropped else s.serv.conns
  final : s.phase = .over → s'.phase = .over

theorem dropped_twice (l : Life σ τ) : Complete.dropped (Complete.dropped l) = Complete.dropped l := rfl

theorem frozen_trans {s s1 s2 : Complete.St σ τ α} (h1 : Frozen s s1) (h2 : Frozen s1 s2) : Frozen s s2 := by
  refine ⟨h2.shared.trans h1.shared, h2.proc.trans h1.proc, h2.handled.trans h1.handled, ?_, fun h => h2.final (h1.final h)⟩
  rw [h2.conns]
  by_cases ho : s1.phase = .over
  · rw [if_pos (h2.final ho), if_pos (h2.final ho), h1.conns, if_pos ho, List.map_map]; rfl
  · rw [h1.conns, if_neg ho]

/-- The end of the program is that of a program that has been stopped, and then nothing is left of the connections. -/
structure Stopped (stopped : σ → Bool) (s : Complete.St σ τ α) : Prop where
  flag : stopped s.serv.sh.app = true
  over : s.phase = .over → s.serv.conns = s.serv.conns.map Complete.dropped

theorem local_kb {A : App σ τ} {fuel : Nat} {p : Platform} {manual : α → α} {l l' : Local.St σ τ α} {e : Keyboard.Ev α} {x : Option Exn} (h : Local.step A fuel p manual l (.kb e) = .ok (some (l', x))) :
    Local.ownStep e = true ∧ x = none ∧ ∃ k, Keyboard.step p manual l.kb e = some k ∧ l' = { l with kb := k } := by
  simp only [Local.step] at h
  split at h
  · rename_i ho
    split at h
    · cases h
    · rename_i k hk
      cases h
      exact ⟨ho, rfl, k, hk, rfl⟩
  · cases h

theorem local_kb_defined {A : App σ τ} {fuel : Nat} {p : Platform} {manual : α → α} {l : Local.St σ τ α} {e : Keyboard.Ev α} {f : Fault} : Local.step A fuel p manual l (.kb e) ≠ .error f := by
  simp only [Local.step]
  split
  · split <;> simp
  · simp

theorem local_done {A : App σ τ} {fuel : Nat} {p : Platform} {manual : α → α} {l l' : Local.St σ τ α} {x : Option Exn} (h : Local.step A fuel p manual l .done = .ok (some (l', x))) :
    l.busy = true ∧ x = none ∧ l' = { l with kb := { l.kb with enabled := true, oldt := l.kb.tty, tty := manual l.kb.tty }, busy := false } := by
  simp only [Local.step, Keyboard.step] at h
  split at h
  · rename_i hb; cases h; exact ⟨hb, rfl, rfl⟩
  · cases h

theorem local_done_defined {A : App σ τ} {fuel : Nat} {p : Platform} {manual : α → α} {l : Local.St σ τ α} {f : Fault} : Local.step A fuel p manual l .done ≠ .error f := by
  simp only [Local.step, Keyboard.step]
  split <;> simp

theorem frozen_step {A : App σ τ} {S : Server σ} {stopped : σ → Bool} {fuel : Nat} {p : Platform} {manual : α → α} {s : Complete.St σ τ α} (hs : Stopped stopped s) (e : Complete.Ev α) :
    Complete.step A S stopped fuel p manual s e = .ok none ∨ ∃ s', Complete.step A S stopped fuel p manual s e = .ok (some (s', none)) ∧ Frozen s s' ∧ Stopped stopped s' := by
  have here : s.serv.conns = if s.phase = .over then s.serv.conns.map Complete.dropped else s.serv.conns := by
    by_cases hp : s.phase = .over
    · rw [if_pos hp]; exact hs.over hp
    · rw [if_neg hp]
  have hst := hs.flag
  cases e with
  | kb e =>
    simp only [Complete.step]
    cases h : Local.step A fuel p manual s.loc (.kb e) with
    | error f => exact absurd h local_kb_defined
    | ok r =>
      cases r with
      | none => exact .inl rfl
      | some v =>
        obtain ⟨l, x⟩ := v
        obtain ⟨_, rfl, k, _, rfl⟩ := local_kb h
        exact .inr ⟨_, rfl, ⟨rfl, rfl, rfl, here, id⟩, ⟨hst, hs.over⟩⟩
  | task => exact .inl (by simp [Complete.step, hst])
  | done =>
    simp only [Complete.step]
    by_cases hp : s.phase = .run
    · rw [if_pos hp]
      cases h : Local.step A fuel p manual s.loc .done with
      | error f => exact absurd h local_done_defined
      | ok r =>
        cases r with
        | none => exact .inl rfl
        | some v =>
          obtain ⟨l, x⟩ := v
          obtain ⟨_, rfl, rfl⟩ := local_done h
          exact .inr ⟨_, rfl, ⟨rfl, rfl, rfl, here, id⟩, ⟨hst, hs.over⟩⟩
    · rw [if_neg hp]; exact .inl rfl
  | net e => exact .inl (by simp [Complete.step, hst])
  | ret =>
    simp only [Complete.step]
    split
    · rename_i hc
      exact .inr ⟨_, rfl, ⟨rfl, rfl, rfl, rfl, fun h => by simp [h] at hc⟩, ⟨hst, fun h => by cases h⟩⟩
    · exact .inl rfl
  | closeServer =>
    simp only [Complete.step]
    split
    · rename_i hc
      exact .inr ⟨_, rfl, ⟨rfl, rfl, rfl, rfl, fun h => by simp [h] at hc⟩, ⟨hst, fun h => by cases h⟩⟩
    · exact .inl rfl
  | destroy =>
    simp only [Complete.step, Keyboard.step]
    split
    · rename_i hc
      exact .inr ⟨_, rfl, ⟨rfl, rfl, rfl, rfl, fun h => by simp [h] at hc⟩, ⟨hst, fun h => by cases h⟩⟩
    · exact .inl rfl
  | join =>
    simp only [Complete.step]
    split
    · rename_i hc
      exact .inr ⟨_, rfl, ⟨rfl, rfl, rfl, rfl, fun h => by simp [h] at hc⟩, ⟨hst, fun h => by cases h⟩⟩
    · exact .inl rfl
  | drop =>
    simp only [Complete.step]
    split
    · exact .inr ⟨_, rfl, ⟨rfl, rfl, rfl, rfl, fun _ => rfl⟩, ⟨hst, fun _ => by simp only [List.map_map]; rfl⟩⟩
    · exact .inl rfl

theorem frozen_run {A : App σ τ} {S : Server σ} {stopped : σ → Bool} {fuel : Nat} {p : Platform} {manual : α → α} (es : List (Complete.Ev α)) : ∀ {s : Complete.St σ τ α}, Stopped stopped s →
    Complete.run A S stopped fuel p manual es s = .ok none ∨ ∃ s', Complete.run A S stopped fuel p manual es s = .ok (some (s', none)) ∧ Frozen s s' ∧ Stopped stopped s' := by
  induction es with
  | nil =>
    intro s hs
    refine .inr ⟨s, rfl, ⟨rfl, rfl, rfl, ?_, id⟩, hs⟩
    by_cases hp : s.phase = .over
    · rw [if_pos hp]; exact hs.over hp
    · rw [if_neg hp]
  | cons e es ih =>
    intro s hs
    simp only [Complete.run]
    rcases frozen_step (A := A) (S := S) (fuel := fuel) (p := p) (manual := manual) hs e with h | ⟨s1, h, h1, h2⟩
    · rw [h]; exact .inl rfl
    · rw [h]
      simp only
      rcases ih h2 with h' | ⟨s2, h', h3, h4⟩
      · exact .inl h'
      · exact .inr ⟨s2, h', frozen_trans h1 h3, h4⟩

/-- **C101** Once the scheduler has been stopped, nothing is executed for anybody: whatever arrives, the commands of the application, the menus and the storage, the local session and the sessions of the clients stay as they are
    until the latter are destroyed with the scheduler; no exception leaves the scheduler, and there is no undefined behaviour, the destruction of all objects included. -/
theorem C101_after_stop (A : App σ τ) (S : Server σ) (stopped : σ → Bool) (fuel : Nat) (p : Platform) (manual : α → α) (s : Complete.St σ τ α) (hst : stopped s.serv.sh.app = true) (hp : s.phase = .run) (es : List (Complete.Ev α)) :
    (∀ f, Complete.run A S stopped fuel p manual es s ≠ .error f) ∧
    ∀ s' x, Complete.run A S stopped fuel p manual es s = .ok (some (s', x)) → x = none ∧ s'.serv.sh = s.serv.sh ∧ s'.loc.proc = s.loc.proc ∧ s'.loc.handled = s.loc.handled ∧
      s'.serv.conns = if s'.phase = .over then s.serv.conns.map Complete.dropped else s.serv.conns := by
  have hs : Stopped stopped s := ⟨hst, fun h => by rw [hp] at h; cases h⟩
  rcases frozen_run (A := A) (S := S) (fuel := fuel) (p := p) (manual := manual) es hs with h | ⟨s1, h, h1, h2⟩
  · rw [h]
    exact ⟨(fun f h' => by cases h'), (fun s' x h' => by cases h')⟩
  · rw [h]
    refine ⟨(fun f h' => by cases h'), fun s' x h' => ?_⟩
    cases h'
    exact ⟨rfl, h1.shared, h1.proc, h1.handled, h1.conns⟩

/-! ### The clients -/

/-- What an event is to client `j`. -/
def nowIn (s : Complete.St σ τ α) (j : Nat) : Complete.Ev α → Seen
  | .net e => nowTo s.serv j e
  | _ => .none

/-- What an execution of the program is to client `j`. -/
def tale (A : App σ τ) (S : Server σ) (stopped : σ → Bool) (fuel : Nat) (p : Platform) (manual : α → α) (j : Nat) : List (Complete.Ev α) → Complete.St σ τ α → Seen
  | [], _ => .none
  | e :: es, s =>
    match Complete.step A S stopped fuel p manual s e with
    | .ok (some (s', x)) => (nowIn s j e).add (if x = none then tale A S stopped fuel p manual j es s' else .none)
    | _ => .none

/-- The data that client `j` has sent. -/
def sentTo (j : Nat) (es : List (Complete.Ev α)) : List Str := sentBy j (es.filterMap (fun | .net e => some e | _ => none))

/-- One thread runs the scheduler. -/
def OneByOne (es : List (Complete.Ev α)) : Prop := ∀ e, .net e ∈ es → Serial [e]

theorem allServed_hears {s : Serv σ τ} {H : Nat → Seen} (hs : AllServed s H) (t : Str) (sh : Sessions.Shared σ τ) (acc : Bool) : AllServed ⟨sh, acc, s.conns.map (TelnetServer.hears t)⟩ H := by
  refine ⟨fun j m hm => ?_, fun j hj => hs.2 j (by simpa using hj)⟩
  simp only [List.getElem?_map] at hm
  cases hc : s.conns[j]? with
  | none => rw [hc] at hm; cases hm
  | some c => rw [hc] at hm; cases hm; exact served_hears _ (hs.1 j c hc)

/-- What a step does to the server, as long as the program is not over. -/
theorem complete_serv {A : App σ τ} {S : Server σ} {stopped : σ → Bool} {fuel : Nat} {p : Platform} {manual : α → α} {s s' : Complete.St σ τ α} {e : Complete.Ev α} {x : Option Exn}
    (h : Complete.step A S stopped fuel p manual s e = .ok (some (s', x))) (ho : s'.phase ≠ .over) :
    (∃ ne, e = .net ne ∧ TelnetServer.step A S fuel s.serv ne = .ok (some (s'.serv, x))) ∨
    ((∀ ne, e ≠ .net ne) ∧ ((s'.serv.conns = s.serv.conns) ∨ ∃ t, s'.serv.conns = s.serv.conns.map (TelnetServer.hears t))) := by
  cases e with
  | net ne =>
    simp only [Complete.step] at h
    split at h
    · split at h
      · rename_i v y hv; cases h; exact .inl ⟨ne, rfl, hv⟩
      · cases h
      · cases h
    · cases h
  | kb e =>
    simp only [Complete.step] at h
    split at h <;> cases h
    exact .inr ⟨(fun _ h => by cases h), .inl rfl⟩
  | task =>
    simp only [Complete.step] at h
    split at h
    · split at h <;> cases h
      exact .inr ⟨(fun _ h => by cases h), .inr ⟨_, rfl⟩⟩
    · cases h
  | done =>
    simp only [Complete.step] at h
    split at h
    · split at h <;> cases h
      exact .inr ⟨(fun _ h => by cases h), .inl rfl⟩
    · cases h
  | ret => simp only [Complete.step] at h; split at h <;> cases h; exact .inr ⟨(fun _ h => by cases h), .inl rfl⟩
  | closeServer => simp only [Complete.step] at h; split at h <;> cases h; exact .inr ⟨(fun _ h => by cases h), .inl rfl⟩
  | destroy => simp only [Complete.step, Keyboard.step] at h; split at h <;> cases h; exact .inr ⟨(fun _ h => by cases h), .inl rfl⟩
  | join => simp only [Complete.step] at h; split at h <;> cases h; exact .inr ⟨(fun _ h => by cases h), .inl rfl⟩
  | drop => simp only [Complete.step] at h; split at h <;> cases h; exact absurd rfl ho

/-- The program does not come back from its end. -/
theorem complete_over {A : App σ τ} {S : Server σ} {stopped : σ → Bool} {fuel : Nat} {p : Platform} {manual : α → α} {s s' : Complete.St σ τ α} {e : Complete.Ev α} {x : Option Exn}
    (h : Complete.step A S stopped fuel p manual s e = .ok (some (s', x))) (ho : s.phase = .over) : s'.phase = .over := by
  cases e with
  | kb e => simp only [Complete.step] at h; split at h <;> cases h; exact ho
  | _ => simp [Complete.step, ho] at h

theorem tale_step {A : App σ τ} {S : Server σ} {stopped : σ → Bool} {fuel : Nat} {p : Platform} {manual : α → α} {s s' : Complete.St σ τ α} {e : Complete.Ev α} {x : Option Exn} {H : Nat → Seen}
    (hs : AllServed s.serv H) (he : OneByOne [e]) (h : Complete.step A S stopped fuel p manual s e = .ok (some (s', x))) (ho : s'.phase ≠ .over) :
    AllServed s'.serv (fun j => (H j).add (nowIn s j e)) := by
  rcases complete_serv h ho with ⟨ne, rfl, hn⟩ | ⟨hne, hc⟩
  · exact allServed_step hs (he ne (by simp)) hn
  · have e1 : ∀ j, nowIn s j e = Seen.none := by
      intro j
      cases e with
      | net ne => exact absurd rfl (hne ne)
      | _ => rfl
    simp only [e1, Seen.add_none]
    rcases hc with hc | ⟨t, hc⟩
    · exact ⟨fun j l hl => hs.1 j l (by rw [← hc]; exact hl), fun j hj => hs.2 j (by rw [← hc]; exact hj)⟩
    · have := allServed_hears hs t s'.serv.sh s'.serv.accepting
      rw [← hc] at this
      exact this

theorem tale_run {A : App σ τ} {S : Server σ} {stopped : σ → Bool} {fuel : Nat} {p : Platform} {manual : α → α} (es : List (Complete.Ev α)) : ∀ {s s' : Complete.St σ τ α} {x : Option Exn} {H : Nat → Seen},
    AllServed s.serv H → OneByOne es → Complete.run A S stopped fuel p manual es s = .ok (some (s', x)) → s'.phase ≠ .over →
    AllServed s'.serv (fun j => (H j).add (tale A S stopped fuel p manual j es s)) := by
  have stays : ∀ (es : List (Complete.Ev α)) (s s' : Complete.St σ τ α) (x : Option Exn), Complete.run A S stopped fuel p manual es s = .ok (some (s', x)) → s.phase = .over → s'.phase = .over := by
    intro es
    induction es with
    | nil => intro s s' x h ho; cases h; exact ho
    | cons e es ih =>
      intro s s' x h ho
      simp only [Complete.run] at h
      split at h
      · cases h
      · cases h
      · rename_i s1 y h1; cases h; exact complete_over h1 ho
      · rename_i s1 h1; exact ih s1 s' x h (complete_over h1 ho)
  induction es with
  | nil => intro s s' x H hs _ h _; cases h; simpa only [tale, Seen.add_none] using hs
  | cons e es ih =>
    intro s s' x H hs he h ho
    have he1 : OneByOne [e] := fun ne hm => he ne (by cases List.mem_singleton.1 hm; simp)
    simp only [Complete.run] at h
    split at h
    · cases h
    · cases h
    · rename_i s1 y h1
      cases h
      simp only [tale, h1, reduceCtorEq, if_false, Seen.add_none]
      exact tale_step hs he1 h1 ho
    · rename_i s1 h1
      have ho1 : s1.phase ≠ .over := fun hp => ho (stays es s1 s' x h hp)
      have h2 := ih (tale_step hs he1 h1 ho1) (fun ne hm => he ne (by simp [hm])) h ho
      simp only [tale, h1, if_true]
      simpa only [Seen.add_assoc] using h2

theorem tale_sent {A : App σ τ} {S : Server σ} {stopped : σ → Bool} {fuel : Nat} {p : Platform} {manual : α → α} (j : Nat) (es : List (Complete.Ev α)) : ∀ {s s' : Complete.St σ τ α},
    Complete.run A S stopped fuel p manual es s = .ok (some (s', none)) → (tale A S stopped fuel p manual j es s).sent = sentTo j es := by
  induction es with
  | nil => intro s s' _; rfl
  | cons e es ih =>
    intro s s' h
    simp only [Complete.run] at h
    split at h
    · cases h
    · cases h
    · cases h
    · rename_i s1 h1
      simp only [tale, h1, if_true, Seen.add, ih h]
      cases e with
      | net ne =>
        have hone : (nowTo s.serv j ne).sent = sentBy j [ne] := by
          simp only [Complete.step] at h1
          split at h1
          · split at h1
            · rename_i v y hv
              have hr : TelnetServer.run A S fuel [ne] s.serv = .ok (some v) := by simp only [TelnetServer.run, hv]
              have := story_sent j [ne] hr
              simpa only [story, hv, Seen.add_none] using this
            · cases h1
            · cases h1
          · cases h1
        simp only [nowIn, hone, sentTo]
        simp only [sentBy, List.filterMap_cons, List.filterMap_nil]
        cases ne with
        | conn i ev => cases ev <;> simp <;> split <;> simp_all
        | _ => simp
      | _ => simp [nowIn, Seen.none, sentTo]

/-- **C101** The clients of the telnet server are served beside the local session: until the program is over, for every client the keys handled in its session and those in the queue are, in order, the ones that the data decoded for it say, and these data
    followed by the ones in the queue are the data it has sent, as long as its connection is open (and no exception leaves the scheduler); whatever is typed on the keyboard, whatever the other clients send, and whatever the commands do. -/
theorem C101_served (A : App σ τ) (S : Server σ) (stopped : σ → Bool) (fuel : Nat) (p : Platform) (manual : α → α) (l0 : Local.St σ τ α) (es : List (Complete.Ev α)) (he : OneByOne es) (s : Complete.St σ τ α) (x : Option Exn)
    (h : Complete.run A S stopped fuel p manual es (Complete.start l0) = .ok (some (s, x))) (ho : s.phase ≠ .over) (j : Nat) (l : Life σ τ) (hl : s.serv.conns[j]? = some l) :
    let r := tale A S stopped fuel p manual j es (Complete.start l0)
    r.keys ++ keysIn l.queue = typedBy r.data ∧ (x = none → l.tel.proc.w.app.2 = true → r.data ++ readsIn l.queue = sentTo j es) := by
  have h0 : AllServed (Complete.start l0).serv (fun _ => .none) := ⟨(fun j l h => by cases h), fun _ _ => rfl⟩
  have := (tale_run es h0 he h ho).1 j l hl
  have e : (Seen.none).add (tale A S stopped fuel p manual j es (Complete.start l0)) = tale A S stopped fuel p manual j es (Complete.start l0) := by simp [Seen.add, Seen.none]
  simp only [e] at this
  refine ⟨this.keys, fun hx ho => ?_⟩
  subst hx
  exact (this.sent ho).trans (tale_sent j es h)

/-! ### The local session -/

/-- What is typed on the keyboard. -/
def Complete.typed : List (Complete.Ev α) → Str
  | [] => []
  | .kb (.arrive b) :: es => b :: typed es
  | _ :: es => typed es

/-- The standard input is not closed, no other code reads from it, and no signal interrupts the reader thread. -/
def Peaceful (e : Complete.Ev α) : Prop :=
  match e with
  | .kb .close | .kb .taken | .kb .signal => False
  | _ => True

theorem Complete.typed_cons (e : Complete.Ev α) (es : List (Complete.Ev α)) : Complete.typed (e :: es) = Complete.typed [e] ++ Complete.typed es := by
  cases e with
  | kb e => cases e <;> rfl
  | _ => rfl

/-- The keys handled in the local session. -/
def localKeys (A : App σ τ) (S : Server σ) (stopped : σ → Bool) (fuel : Nat) (p : Platform) (manual : α → α) : List (Complete.Ev α) → Complete.St σ τ α → List Key
  | [], _ => []
  | e :: es, s =>
    match Complete.step A S stopped fuel p manual s e with
    | .ok (some (s', x)) => (match e with | .task => s.loc.kb.posted[s.loc.handled]?.toList | _ => []) ++ (if x = none then localKeys A S stopped fuel p manual es s' else [])
    | _ => []

/-- A proper state of the program, after `arr` has been typed. -/
structure Going (stopped : σ → Bool) (p : Platform) (arr : Str) (s : Complete.St σ τ α) (x : Option Exn) : Prop where
  read : ∃ r, arr = r ++ s.loc.kb.input ∧ Decoded p r s.loc.kb
  opened : s.loc.kb.closed = false
  handled : s.loc.handled ≤ s.loc.kb.posted.length
  enabled : x = none → s.loc.busy = false → s.loc.kb.enabled = true
  after : s.phase ≠ .run → stopped s.serv.sh.app = true ∧ s.loc.busy = false
  flag : s.loc.kb.stopped = true ↔ s.phase = .joining ∨ s.phase = .noSession ∨ s.phase = .over
  ended : s.loc.kb.reader = .ended → s.loc.kb.stopped = true
  over : s.phase = .noSession ∨ s.phase = .over → s.loc.kb.reader = .ended
  avail : s.loc.kb.reader = .get .first → s.loc.kb.input ≠ []
  live : s.phase = .run → s.loc.live = true

theorem going_kb {stopped : σ → Bool} {p : Platform} {manual : α → α} {arr : Str} {s : Complete.St σ τ α} (A : App σ τ) (fuel : Nat) (g : Going stopped p arr s none) {e : Keyboard.Ev α} {k : Kb α} (hc : Peaceful (.kb e)) (ho : Local.ownStep e = true)
    (hk : Keyboard.step p manual s.loc.kb e = some k) : Going stopped p (arr ++ Complete.typed [.kb e]) { s with loc := { s.loc with kb := k } } none := by
  have hcalm : Calm (Program.Ev.kb e) := by cases e <;> exact hc
  have hu : Undisturbed (Local.Ev.kb e) := by cases e <;> first | exact hc | trivial
  have t0 : Typing A fuel p s.loc.proc arr ({ s.loc with handled := 0, live := true } : Local.St σ τ α) none :=
    ⟨g.read, g.opened, rfl, Nat.zero_le _, by simp [Processor.run], g.enabled⟩
  have t1 := typing_kb t0 ho hu hk
  have htb : typedBytes [Local.Ev.kb e] = Complete.typed [Complete.Ev.kb e] := by cases e <;> rfl
  rw [htb] at t1
  have h1 := kb_stopped ho hk
  obtain ⟨h2, h3, h4⟩ := kb_ended hcalm hk
  refine ⟨t1.read, t1.opened, Nat.le_trans g.handled h4.length_le, t1.enabled, g.after, by simpa only [h1] using g.flag, ?_, fun ho => h3 (g.over ho), kb_avail hcalm hk g.opened g.avail, g.live⟩
  intro he
  show k.stopped = true
  rw [h1]
  rcases h2 he with h5 | h5
  · exact g.ended h5
  · exact h5

theorem going_step {A : App σ τ} {S : Server σ} {stopped : σ → Bool} {fuel : Nat} {p : Platform} {manual : α → α} {arr : Str} {s s' : Complete.St σ τ α} {e : Complete.Ev α} {x : Option Exn} (g : Going stopped p arr s none) (hc : Peaceful e)
    (h : Complete.step A S stopped fuel p manual s e = .ok (some (s', x))) :
    Going stopped p (arr ++ Complete.typed [e]) s' x ∧ s'.loc.handled = s.loc.handled + (match e with | .task => 1 | _ => 0) ∧ s.loc.kb.posted <+: s'.loc.kb.posted ∧ (e = .task → s.loc.handled < s.loc.kb.posted.length) := by
  have same : ∀ e : Complete.Ev α, (∀ b, e ≠ .kb (.arrive b)) → arr ++ Complete.typed [e] = arr := by
    intro e he
    cases e with
    | kb e => cases e <;> first | (exact List.append_nil _) | (exact absurd rfl (he _))
    | _ => exact List.append_nil _
  cases e with
  | kb e =>
    simp only [Complete.step] at h
    split at h
    · rename_i l y hl
      cases h
      obtain ⟨ho, rfl, k, hk, rfl⟩ := local_kb hl
      have hcalm : Calm (Program.Ev.kb e) := by cases e <;> exact hc
      exact ⟨going_kb A fuel g hc ho hk, rfl, (kb_ended hcalm hk).2.2, (fun h => by cases h)⟩
    · cases h
    · cases h
  | task =>
    rw [same _ (fun b h => by cases h)]
    simp only [Complete.step] at h
    split at h
    · rename_i hcond
      have hlive := g.live hcond.1
      split at h
      · rename_i l y hl
        cases h
        simp only [Local.step] at hl
        split at hl
        · cases hl
        · split at hl
          · cases hl
          · rename_i key hkey
            have hlt : s.loc.handled < s.loc.kb.posted.length := (List.getElem?_eq_some_iff.1 hkey).1
            rw [if_pos (show (Complete.seenLocal s.serv.sh s.loc).live = true from hlive)] at hl
            split at hl
            · cases hl
            · rename_i hb _ _ q y' hq
              have hb' : s.loc.busy = false := by simpa using (show ¬ s.loc.busy = true from hb)
              split at hl
              · cases hl
                refine ⟨⟨?_, g.opened, hlt, ?_, fun hn => absurd hcond.1 hn, g.flag, g.ended, g.over, g.avail, fun _ => hlive⟩, rfl, List.prefix_refl _, fun _ => hlt⟩
                · obtain ⟨r, h1, h2⟩ := g.read
                  exact ⟨r, h1, decoded_tty h2 rfl rfl⟩
                · intro hx hbz
                  subst hx
                  simp at hbz
              · cases hl
                exact ⟨⟨g.read, g.opened, hlt, fun _ _ => g.enabled rfl hb', fun hn => absurd hcond.1 hn, g.flag, g.ended, g.over, g.avail, fun _ => hlive⟩, rfl, List.prefix_refl _, fun _ => hlt⟩
      · cases h
      · cases h
    · cases h
  | done =>
    rw [same _ (fun b h => by cases h)]
    simp only [Complete.step] at h
    split at h
    · rename_i hp
      split at h
      · rename_i l y hl
        cases h
        obtain ⟨hb, rfl, rfl⟩ := local_done hl
        obtain ⟨r, h1, h2⟩ := g.read
        exact ⟨⟨⟨r, h1, decoded_tty h2 rfl rfl⟩, g.opened, g.handled, fun _ _ => rfl, fun hn => absurd hp hn, g.flag, g.ended, g.over, g.avail, g.live⟩, rfl, List.prefix_refl _, (fun h => by cases h)⟩
      · cases h
      · cases h
    · cases h
  | net ne =>
    rw [same _ (fun b h => by cases h)]
    simp only [Complete.step] at h
    split at h
    · rename_i hcond
      split at h
      · rename_i v y hv
        cases h
        exact ⟨⟨g.read, g.opened, g.handled, fun _ hb => g.enabled rfl hb, fun hn => absurd hcond.1 hn, g.flag, g.ended, g.over, g.avail, g.live⟩, rfl, List.prefix_refl _, (fun h => by cases h)⟩
      · cases h
      · cases h
    · cases h
  | ret =>
    rw [same _ (fun b h => by cases h)]
    simp only [Complete.step] at h
    split at h
    · rename_i hcond
      cases h
      refine ⟨⟨g.read, g.opened, g.handled, g.enabled, fun _ => ⟨hcond.2.2, hcond.2.1⟩, ?_, g.ended, (fun h => by rcases h with h | h <;> cases h), g.avail, (fun h => by cases h)⟩, rfl, List.prefix_refl _, (fun h => by cases h)⟩
      rw [g.flag, hcond.1]; simp
    · cases h
  | closeServer =>
    rw [same _ (fun b h => by cases h)]
    simp only [Complete.step] at h
    split at h
    · rename_i hcond
      cases h
      refine ⟨⟨g.read, g.opened, g.handled, g.enabled, fun _ => g.after (by rw [hcond]; simp), ?_, g.ended, (fun h => by rcases h with h | h <;> cases h), g.avail, (fun h => by cases h)⟩, rfl, List.prefix_refl _, (fun h => by cases h)⟩
      rw [g.flag, hcond]; simp
    · cases h
  | destroy =>
    rw [same _ (fun b h => by cases h)]
    simp only [Complete.step, Keyboard.step] at h
    split at h
    · rename_i hcond
      cases h
      obtain ⟨r, h1, h2⟩ := g.read
      refine ⟨⟨⟨r, h1, decoded_tty h2 rfl rfl⟩, g.opened, g.handled, g.enabled, fun _ => g.after (by rw [hcond]; simp), ?_, fun _ => rfl, (fun h => by rcases h with h | h <;> cases h), g.avail, (fun h => by cases h)⟩, rfl, List.prefix_refl _, (fun h => by cases h)⟩
      simp
    · cases h
  | join =>
    rw [same _ (fun b h => by cases h)]
    simp only [Complete.step] at h
    split at h
    · rename_i hcond
      cases h
      refine ⟨⟨g.read, g.opened, g.handled, g.enabled, fun _ => g.after (by rw [hcond.1]; simp), ?_, g.ended, fun _ => hcond.2, g.avail, (fun h => by cases h)⟩, rfl, List.prefix_refl _, (fun h => by cases h)⟩
      rw [g.flag, hcond.1]; simp
    · cases h
  | drop =>
    rw [same _ (fun b h => by cases h)]
    simp only [Complete.step] at h
    split at h
    · rename_i hcond
      cases h
      refine ⟨⟨g.read, g.opened, g.handled, g.enabled, fun _ => g.after (by rw [hcond]; simp), ?_, g.ended, fun _ => g.over (.inl hcond), g.avail, (fun h => by cases h)⟩, rfl, List.prefix_refl _, (fun h => by cases h)⟩
      rw [g.flag, hcond]; simp
    · cases h

theorem going_run {A : App σ τ} {S : Server σ} {stopped : σ → Bool} {fuel : Nat} {p : Platform} {manual : α → α} (es : List (Complete.Ev α)) : ∀ {arr : Str} {s s' : Complete.St σ τ α} {x : Option Exn}, Going stopped p arr s none →
    (∀ e ∈ es, Peaceful e) → Complete.run A S stopped fuel p manual es s = .ok (some (s', x)) →
    (∃ es1 es2, es = es1 ++ es2 ∧ (x = none → es2 = []) ∧ Going stopped p (arr ++ Complete.typed es1) s' x) ∧ s.loc.kb.posted <+: s'.loc.kb.posted ∧ s.loc.handled ≤ s'.loc.handled ∧
      s'.loc.kb.posted.take s'.loc.handled = s.loc.kb.posted.take s.loc.handled ++ localKeys A S stopped fuel p manual es s := by
  induction es with
  | nil =>
    intro arr s s' x g _ h
    cases h
    exact ⟨⟨[], [], rfl, fun _ => rfl, by simpa [Complete.typed] using g⟩, List.prefix_refl _, Nat.le_refl _, by simp [localKeys]⟩
  | cons e es ih =>
    intro arr s s' x g hc h
    simp only [Complete.run] at h
    have one : ∀ (s1 : Complete.St σ τ α) (y : Option Exn), Complete.step A S stopped fuel p manual s e = .ok (some (s1, y)) →
        s1.loc.kb.posted.take s1.loc.handled = s.loc.kb.posted.take s.loc.handled ++ (match e with | .task => s.loc.kb.posted[s.loc.handled]?.toList | _ => []) := by
      intro s1 y h1
      obtain ⟨_, g2, g3, g4⟩ := going_step g (hc e (by simp)) h1
      rw [g2]
      have hle := g.handled
      cases e with
      | task =>
        have hlt := g4 rfl
        simp only
        rw [take_of_prefix g3 hlt, List.take_add_one]
      | _ => simp only [Nat.add_zero, List.append_nil]; exact take_of_prefix g3 hle
    split at h
    · cases h
    · cases h
    · rename_i s1 y h1
      cases h
      obtain ⟨g1, g2, g3, _⟩ := going_step g (hc e (by simp)) h1
      refine ⟨⟨[e], es, rfl, (fun h => by cases h), g1⟩, g3, by rw [g2]; omega, ?_⟩
      rw [one _ _ h1]
      simp only [localKeys, h1, reduceCtorEq, if_false, List.append_nil]
      cases e <;> rfl
    · rename_i s1 h1
      obtain ⟨g1, g2, g3, _⟩ := going_step g (hc e (by simp)) h1
      obtain ⟨⟨es1, es2, e1, e2, e3⟩, i2, i3, i4⟩ := ih g1 (fun e he => hc e (by simp [he])) h
      refine ⟨⟨e :: es1, es2, by rw [e1]; rfl, e2, ?_⟩, g3.trans i2, by rw [g2] at i3; omega, ?_⟩
      · rw [Complete.typed_cons, ← List.append_assoc]; exact e3
      · rw [i4, one _ _ h1]
        simp only [localKeys, h1, if_true, List.append_assoc]
        cases e <;> rfl

theorem Complete.typed_append (a b : List (Complete.Ev α)) : Complete.typed (a ++ b) = Complete.typed a ++ Complete.typed b := by
  induction a with
  | nil => rfl
  | cons e a ih => rw [List.cons_append, Complete.typed_cons, ih, Complete.typed_cons e a, List.append_assoc]

theorem going_start {A : App σ τ} {stopped : σ → Bool} {p : Platform} {manual : α → α} {tty : α} {n : Nat} {w : World σ τ} {io : Io} {l : Local.St σ τ α}
    (h : Local.create A manual tty n w io = .ok (l, none)) : Going stopped p [] (Complete.start l) none := by
  have ht := typing_create (fuel := 0) (p := p) h
  unfold Local.create at h
  split at h
  · cases h
  · split at h
    · cases h
    · cases h
      exact ⟨ht.read, rfl, Nat.le_refl _, fun _ _ => rfl, fun h => absurd rfl h, by simp [Keyboard.init, Complete.start], by simp [Keyboard.init, Complete.start],
        (fun h => by rcases h with h | h <;> cases h), by simp [Keyboard.init, Complete.start], fun _ => rfl⟩

/-- **C101** The local session is served beside the clients: in every interleaving of the main thread, the reader thread, the typing and what the clients send, the keys handled in it are the first ones of those typed, in order. -/
theorem C101_local_keys (A : App σ τ) (S : Server σ) (stopped : σ → Bool) (fuel : Nat) (p : Platform) (manual : α → α) (tty : α) (n : Nat) (w : World σ τ) (io : Io) (l : Local.St σ τ α) (es : List (Complete.Ev α)) (s : Complete.St σ τ α)
    (x : Option Exn) (h0 : Local.create A manual tty n w io = .ok (l, none)) (hc : ∀ e ∈ es, Peaceful e) (h : Complete.run A S stopped fuel p manual es (Complete.start l) = .ok (some (s, x))) :
    localKeys A S stopped fuel p manual es (Complete.start l) <+: (decode p .first (Complete.typed es)).2 := by
  obtain ⟨⟨es1, es2, rfl, _, g⟩, _, _, e4⟩ := going_run es (going_start h0) hc h
  have hz : (Complete.start l).loc.handled = 0 := by
    unfold Local.create at h0
    split at h0
    · cases h0
    · split at h0 <;> cases h0
      rfl
  rw [hz, List.take_zero, List.nil_append] at e4
  obtain ⟨r, g1, g2⟩ := g.read
  rw [List.nil_append] at g1
  rw [← e4, Complete.typed_append, g1, List.append_assoc]
  exact (List.take_prefix _ _).trans (decoded_prefix g2)

/-! ### The end -/

/-- The steps of the two threads. -/
def Progress (e : Complete.Ev α) : Prop :=
  match e with
  | .kb e => Own e
  | _ => True

/-- **C101** (partial) Once the scheduler has been stopped, the program ends, if what has been typed is not half an escape sequence: as long as it is not over, one of its two threads can go on. This does not depend on the clients, who may
    be connected and send what they like. Missing: half an escape sequence (as C90). -/
theorem C101_ends_partial (A : App σ τ) (S : Server σ) (stopped : σ → Bool) (fuel : Nat) (p : Platform) (manual : α → α) (tty : α) (n : Nat) (w : World σ τ) (io : Io) (l : Local.St σ τ α) (es : List (Complete.Ev α)) (s : Complete.St σ τ α)
    (h0 : Local.create A manual tty n w io = .ok (l, none)) (hc : ∀ e ∈ es, Peaceful e) (h : Complete.run A S stopped fuel p manual es (Complete.start l) = .ok (some (s, none)))
    (hst : stopped s.serv.sh.app = true) (ht : (decode p .first (Complete.typed es)).1 = .first) (ho : s.phase ≠ .over) :
    ∃ e, Progress e ∧ ∃ s', Complete.step A S stopped fuel p manual s e = .ok (some (s', none)) := by
  obtain ⟨⟨es1, es2, rfl, he2, g⟩, _⟩ := going_run es (going_start h0) hc h
  rw [he2 rfl, List.append_nil] at ht
  rw [List.nil_append] at g
  cases hp : s.phase with
  | over => exact absurd hp ho
  | run =>
    cases hb : s.loc.busy with
    | true =>
      exact ⟨.done, trivial, { s with loc := { s.loc with kb := { s.loc.kb with enabled := true, oldt := s.loc.kb.tty, tty := manual s.loc.kb.tty }, busy := false } }, by simp only [Complete.step, hp, if_true, Local.step, hb, Keyboard.step]⟩
    | false => exact ⟨.ret, trivial, _, by simp only [Complete.step, hp, hb, hst, and_self, if_true]; rfl⟩
  | returned => exact ⟨.closeServer, trivial, _, by simp only [Complete.step, hp, if_true]; rfl⟩
  | noServer => exact ⟨.destroy, trivial, _, by simp only [Complete.step, hp, if_true, Keyboard.step]; rfl⟩
  | noSession => exact ⟨.drop, trivial, _, by simp only [Complete.step, hp, if_true]; rfl⟩
  | joining =>
    have hf : s.loc.kb.stopped = true := g.flag.2 (.inl hp)
    have hbusy := (g.after (by rw [hp]; simp)).2
    have hen := g.enabled rfl hbusy
    cases hr : s.loc.kb.reader with
    | ended => exact ⟨.join, trivial, _, by simp only [Complete.step, hp, hr, and_self, if_true]; rfl⟩
    | wait => exact ⟨.kb .check, trivial, _, by simp only [Complete.step, Local.step, Local.ownStep, if_true, Keyboard.step, hr, hen, and_self]; rfl⟩
    | select => exact ⟨.kb .ready, trivial, _, by simp only [Complete.step, Local.step, Local.ownStep, if_true, Keyboard.step, hr, hf]; rfl⟩
    | post k => exact ⟨.kb .post, trivial, _, by simp only [Complete.step, Local.step, Local.ownStep, if_true, Keyboard.step, hr]; rfl⟩
    | get pc =>
      cases hi : s.loc.kb.input with
      | cons c rest => exact ⟨.kb .getc, trivial, _, by simp only [Complete.step, Local.step, Local.ownStep, if_true, Keyboard.step, hr, hi]; rfl⟩
      | nil =>
        obtain ⟨r, g1, g2⟩ := g.read
        unfold Decoded at g2
        rw [hr] at g2
        rw [g1, hi, List.append_nil, g2] at ht
        simp only at ht
        subst ht
        exact absurd hi (g.avail hr)

/-- How much the reader thread has to do, at most. -/
def kbWork (k : Kb α) : Nat := 6 * k.input.length + readerWork k.reader

theorem kbWork_step {p : Platform} {manual : α → α} {k k' : Kb α} {e : Keyboard.Ev α} (he : Own e) (hc : k.closed = false) (h : Keyboard.step p manual k e = some k') : kbWork k' + 1 ≤ kbWork k := by
  cases e with
  | check =>
    simp only [Keyboard.step] at h; split at h <;> cases h
    rename_i hc
    simp [kbWork, readerWork, hc.1]
  | ready =>
    simp only [Keyboard.step] at h
    split at h
    · rename_i hc
      split at h
      · cases h; simp [kbWork, readerWork, hc]
      · split at h <;> cases h
        simp [kbWork, readerWork, hc]
    · cases h
  | getc =>
    simp only [Keyboard.step] at h
    split at h
    · rename_i pc hpc
      split at h
      · rw [hc] at h; simp at h
      · rename_i c rest hin
        cases h
        have : readerWork (Keyboard.step.after p pc c) ≤ 5 := by
          cases Keyboard.step.after p pc c <;> simp [readerWork]
        simp [kbWork, hin, hpc]; omega
    · cases h
  | post =>
    simp only [Keyboard.step] at h
    split at h
    · rename_i key hpc
      cases h
      simp [kbWork, readerWork, hpc]
    · cases h
  | _ => exact he.elim

/-- **C101** And this does not go on forever: if nothing more is typed, there is a bound for the number of steps after the scheduler has been stopped, in whatever order. -/
theorem C101_bounded (A : App σ τ) (S : Server σ) (stopped : σ → Bool) (fuel : Nat) (p : Platform) (manual : α → α) (tty : α) (n : Nat) (w : World σ τ) (io : Io) (l : Local.St σ τ α) (es es' : List (Complete.Ev α)) (s s' : Complete.St σ τ α)
    (x : Option Exn) (h0 : Local.create A manual tty n w io = .ok (l, none)) (hc : ∀ e ∈ es, Peaceful e) (h : Complete.run A S stopped fuel p manual es (Complete.start l) = .ok (some (s, none)))
    (hst : stopped s.serv.sh.app = true) (hm : ∀ e ∈ es', Progress e) (h' : Complete.run A S stopped fuel p manual es' s = .ok (some (s', x))) : es'.length ≤ 6 * s.loc.kb.input.length + 11 := by
  obtain ⟨⟨es1, es2, rfl, _, g⟩, _⟩ := going_run es (going_start h0) hc h
  let rank : Complete.Phase → Nat := fun | .run => 5 | .returned => 4 | .noServer => 3 | .joining => 2 | .noSession => 1 | .over => 0
  have peace : ∀ e : Complete.Ev α, Progress e → Peaceful e := by
    intro e he
    cases e with
    | kb e => cases e <;> trivial
    | _ => trivial
  have gen : ∀ (es : List (Complete.Ev α)) (arr : Str) (s : Complete.St σ τ α), Going stopped p arr s none → stopped s.serv.sh.app = true → (∀ e ∈ es, Progress e) → Complete.run A S stopped fuel p manual es s = .ok (some (s', x)) →
      es.length ≤ kbWork s.loc.kb + rank s.phase + (if s.loc.busy then 1 else 0) := by
    intro es
    induction es with
    | nil => intro arr s _ _ _ _; simp
    | cons e es ih =>
      intro arr s g hst hm hs
      have key : ∀ (s1 : Complete.St σ τ α) (y : Option Exn), Complete.step A S stopped fuel p manual s e = .ok (some (s1, y)) →
          y = none ∧ stopped s1.serv.sh.app = true ∧ kbWork s1.loc.kb + rank s1.phase + (if s1.loc.busy then 1 else 0) + 1 ≤ kbWork s.loc.kb + rank s.phase + (if s.loc.busy then 1 else 0) := by
        intro s1 y h1
        cases e with
        | kb e =>
          simp only [Complete.step] at h1
          split at h1
          · rename_i l1 z hl
            cases h1
            obtain ⟨_, rfl, k, hk, rfl⟩ := local_kb hl
            have hown : Own e := hm (.kb e) (List.mem_cons_self ..)
            have := kbWork_step hown g.opened hk
            exact ⟨rfl, hst, by simp only; omega⟩
          · cases h1
          · cases h1
        | task => simp [Complete.step, hst] at h1
        | net e => simp [Complete.step, hst] at h1
        | done =>
          simp only [Complete.step] at h1
          split at h1
          · split at h1
            · rename_i l1 z hl
              cases h1
              obtain ⟨hb, rfl, rfl⟩ := local_done hl
              exact ⟨rfl, hst, by simp [hb, kbWork]⟩
            · cases h1
            · cases h1
          · cases h1
        | ret =>
          simp only [Complete.step] at h1
          split at h1
          · rename_i hcond; cases h1; exact ⟨rfl, hst, by simp [rank, hcond.1, hcond.2.1]⟩
          · cases h1
        | closeServer =>
          simp only [Complete.step] at h1
          split at h1
          · rename_i hcond; cases h1; exact ⟨rfl, hst, by simp only [rank, hcond]; omega⟩
          · cases h1
        | destroy =>
          simp only [Complete.step, Keyboard.step] at h1
          split at h1
          · rename_i hcond; cases h1; exact ⟨rfl, hst, by simp only [rank, hcond, kbWork]; omega⟩
          · cases h1
        | join =>
          simp only [Complete.step] at h1
          split at h1
          · rename_i hcond; cases h1; exact ⟨rfl, hst, by simp only [rank, hcond.1]; omega⟩
          · cases h1
        | drop =>
          simp only [Complete.step] at h1
          split at h1
          · rename_i hcond; cases h1; exact ⟨rfl, hst, by simp only [rank, hcond]; omega⟩
          · cases h1
      simp only [Complete.run] at hs
      split at hs
      · cases hs
      · cases hs
      · rename_i s1 y h1; cases (key _ _ h1).1
      · rename_i s1 h1
        obtain ⟨_, k2, k3⟩ := key _ _ h1
        have h2 := ih _ s1 (going_step g (peace e (hm e (by simp))) h1).1 k2 (fun e he => hm e (by simp [he])) hs
        simp only [List.length_cons]
        omega
  have h1 := gen es' _ s g hst hm h'
  have hr : readerWork s.loc.kb.reader ≤ 5 := by cases s.loc.kb.reader <;> simp [readerWork]
  have hk : rank s.phase ≤ 5 := by cases s.phase <;> simp [rank]
  unfold kbWork at h1
  split at h1 <;> omega

/-! ### The terminal -/

/-- The mode of the terminal. -/
structure Modal (manual : α → α) (tty : α) (s : Complete.St σ τ α) : Prop where
  busy : s.loc.busy = true → s.loc.kb.enabled = false
  oldt : s.loc.kb.oldt = tty
  tty : s.loc.kb.tty = if (s.phase = .run ∨ s.phase = .returned ∨ s.phase = .noServer) ∧ s.loc.kb.enabled = true then manual tty else tty

/-- The event does not change the mode of the terminal behind the library's back. -/
def Behaved (e : Complete.Ev α) : Prop := ∀ a, e ≠ .kb (.setTty a)

theorem modal_step {A : App σ τ} {S : Server σ} {stopped : σ → Bool} {fuel : Nat} {p : Platform} {manual : α → α} {tty : α} {s s' : Complete.St σ τ α} {e : Complete.Ev α} {x : Option Exn} (g : Modal manual tty s) (he : Behaved e)
    (h : Complete.step A S stopped fuel p manual s e = .ok (some (s', x))) : Modal manual tty s' := by
  obtain ⟨m1, m2, m3⟩ := g
  cases e with
  | kb e =>
    simp only [Complete.step] at h
    split at h
    · rename_i l y hl
      cases h
      obtain ⟨ho, rfl, k, hk, rfl⟩ := local_kb hl
      obtain ⟨f1, f2, _, f3⟩ := kb_own_frame ho hk
      exact ⟨fun hb => f1.trans (m1 hb), f2.trans m2, by rw [f3 (fun a ha => he a (by rw [ha]))]; simp only [f1]; exact m3⟩
    · cases h
    · cases h
  | task =>
    simp only [Complete.step] at h
    split at h
    · rename_i hcond
      split at h
      · rename_i l y hl
        cases h
        simp only [Local.step] at hl
        split at hl
        · cases hl
        · rename_i hb
          split at hl
          · cases hl
          · split at hl
            · split at hl
              · cases hl
              · split at hl <;> cases hl
                · exact ⟨fun _ => rfl, m2, by simp only [Bool.false_eq_true, and_false, if_false]; exact m2⟩
                · exact ⟨m1, m2, m3⟩
            · split at hl <;> cases hl
      · cases h
      · cases h
    · cases h
  | done =>
    simp only [Complete.step] at h
    split at h
    · rename_i hp
      split at h
      · rename_i l y hl
        cases h
        obtain ⟨hb, rfl, rfl⟩ := local_done hl
        rw [m1 hb] at m3
        simp only [Bool.false_eq_true, and_false, if_false] at m3
        exact ⟨by simp, m3, by simp [hp, m3]⟩
      · cases h
      · cases h
    · cases h
  | net ne =>
    simp only [Complete.step] at h
    split at h
    · split at h
      · cases h; exact ⟨m1, m2, m3⟩
      · cases h
      · cases h
    · cases h
  | ret =>
    simp only [Complete.step] at h
    split at h
    · rename_i hcond; cases h; exact ⟨m1, m2, by rw [m3, hcond.1]; simp⟩
    · cases h
  | closeServer =>
    simp only [Complete.step] at h
    split at h
    · rename_i hcond; cases h; exact ⟨m1, m2, by rw [m3, hcond]; simp⟩
    · cases h
  | destroy =>
    simp only [Complete.step, Keyboard.step] at h
    split at h
    · rename_i hcond; cases h; exact ⟨m1, m2, by simpa using m2⟩
    · cases h
  | join =>
    simp only [Complete.step] at h
    split at h
    · rename_i hcond; cases h; exact ⟨m1, m2, by rw [m3, hcond.1]; simp⟩
    · cases h
  | drop =>
    simp only [Complete.step] at h
    split at h
    · rename_i hcond; cases h; exact ⟨m1, m2, by rw [m3, hcond]; simp⟩
    · cases h

theorem modal_run {A : App σ τ} {S : Server σ} {stopped : σ → Bool} {fuel : Nat} {p : Platform} {manual : α → α} {tty : α} (es : List (Complete.Ev α)) : ∀ {s s' : Complete.St σ τ α} {x : Option Exn}, Modal manual tty s → (∀ e ∈ es, Behaved e) →
    Complete.run A S stopped fuel p manual es s = .ok (some (s', x)) → Modal manual tty s' := by
  induction es with
  | nil => intro s s' x g _ h; cases h; exact g
  | cons e es ih =>
    intro s s' x g hc h
    simp only [Complete.run] at h
    split at h
    · cases h
    · cases h
    · rename_i s1 y h1; cases h; exact modal_step g (hc e (by simp)) h1
    · rename_i s1 h1; exact ih (modal_step g (hc e (by simp)) h1) (fun e he => hc e (by simp [he])) h

/-- **C101** The terminal has its original mode while a command of the local session is executed, and when the program is over; unless other code has changed the mode. -/
theorem C101_restored (A : App σ τ) (S : Server σ) (stopped : σ → Bool) (fuel : Nat) (p : Platform) (manual : α → α) (tty : α) (n : Nat) (w : World σ τ) (io : Io) (l : Local.St σ τ α) (es : List (Complete.Ev α)) (s : Complete.St σ τ α)
    (x : Option Exn) (h0 : Local.create A manual tty n w io = .ok (l, none)) (hc : ∀ e ∈ es, Behaved e) (h : Complete.run A S stopped fuel p manual es (Complete.start l) = .ok (some (s, x)))
    (hs : s.loc.busy = true ∨ s.phase = .over) : s.loc.kb.tty = tty := by
  have g0 : Modal manual tty (Complete.start l) := by
    unfold Local.create at h0
    split at h0
    · cases h0
    · split at h0
      · cases h0
      · cases h0
        exact ⟨by simp [Complete.start], rfl, by simp [Complete.start, Keyboard.init]⟩
  have g := modal_run es g0 hc h
  rw [g.tty]
  rcases hs with hs | hs
  · simp [g.busy hs]
  · simp [hs]

/-! ### Undefined behaviour -/

/-- **C101** Undefined behaviour of the program occurs only when a key is handled, in a session that exists, and it is that of the command processor in the state of the session (C20, C26, C27, C37). -/
theorem C101_defined (A : App σ τ) (S : Server σ) (stopped : σ → Bool) (fuel : Nat) (p : Platform) (manual : α → α) (tty : α) (n : Nat) (w : World σ τ) (io : Io) (l : Local.St σ τ α) (es : List (Complete.Ev α)) (he : OneByOne es)
    (hc : ∀ e ∈ es, Peaceful e) (f : Fault) (h0 : Local.create A manual tty n w io = .ok (l, none)) (h : Complete.run A S stopped fuel p manual es (Complete.start l) = .error f) :
    ∃ (pre : List (Complete.Ev α)) (s : Complete.St σ τ α), pre <+: es ∧ Complete.run A S stopped fuel p manual pre (Complete.start l) = .ok (some (s, none)) ∧ s.phase = .run ∧ stopped s.serv.sh.app = false ∧ s.loc.busy = false ∧
      ((s.loc.live = true ∧ ∃ k, s.loc.kb.posted[s.loc.handled]? = some k ∧ Processor.keypressed A fuel (Complete.seenLocal s.serv.sh s.loc).proc k = .error f) ∨
        ∃ (j : Nat) (c : Life σ τ), s.serv.conns[j]? = some c ∧ owned c.op c.queue = true ∧
          ∃ k rest alive, c.queue = .key k :: rest ∧ Processor.keypressed (telnetApp A S.exitAction alive) fuel (TelnetServer.seenLife s.serv.sh c).tel.proc k = .error f) := by
  have main : ∀ (es : List (Complete.Ev α)) (arr : Str) (s0 : Complete.St σ τ α) (H : Nat → Seen), Going stopped p arr s0 none → (s0.phase = .run → AllServed s0.serv H) → OneByOne es → (∀ e ∈ es, Peaceful e) →
      Complete.run A S stopped fuel p manual es s0 = .error f →
      ∃ (pre : List (Complete.Ev α)) (s : Complete.St σ τ α), pre <+: es ∧ Complete.run A S stopped fuel p manual pre s0 = .ok (some (s, none)) ∧ s.phase = .run ∧ stopped s.serv.sh.app = false ∧ s.loc.busy = false ∧
      ((s.loc.live = true ∧ ∃ k, s.loc.kb.posted[s.loc.handled]? = some k ∧ Processor.keypressed A fuel (Complete.seenLocal s.serv.sh s.loc).proc k = .error f) ∨
        ∃ (j : Nat) (c : Life σ τ), s.serv.conns[j]? = some c ∧ owned c.op c.queue = true ∧
          ∃ k rest alive, c.queue = .key k :: rest ∧ Processor.keypressed (telnetApp A S.exitAction alive) fuel (TelnetServer.seenLife s.serv.sh c).tel.proc k = .error f) := by
    intro es
    induction es with
    | nil => intro arr s0 H _ _ _ _ h; cases h
    | cons e es ih =>
      intro arr s0 H g hs he hc h
      have he1 : OneByOne [e] := fun ne hm => he ne (by cases List.mem_singleton.1 hm; simp)
      simp only [Complete.run] at h
      cases hst : Complete.step A S stopped fuel p manual s0 e with
      | ok r =>
        rw [hst] at h
        cases r with
        | none => cases h
        | some r =>
          obtain ⟨s1, x⟩ := r
          cases x with
          | some x => cases h
          | none =>
            have hrun : s1.phase = .run → s0.phase = .run := by
              intro h1
              cases e with
              | kb e => simp only [Complete.step] at hst; split at hst <;> cases hst; exact h1
              | task => simp only [Complete.step] at hst; split at hst
                        · rename_i hcond; exact hcond.1
                        · cases hst
              | done => simp only [Complete.step] at hst; split at hst
                        · rename_i hcond; exact hcond
                        · cases hst
              | net ne => simp only [Complete.step] at hst; split at hst
                          · rename_i hcond; exact hcond.1
                          · cases hst
              | ret => simp only [Complete.step] at hst; split at hst <;> cases hst; cases h1
              | closeServer => simp only [Complete.step] at hst; split at hst <;> cases hst; cases h1
              | destroy => simp only [Complete.step, Keyboard.step] at hst; split at hst <;> cases hst; cases h1
              | join => simp only [Complete.step] at hst; split at hst <;> cases hst; cases h1
              | drop => simp only [Complete.step] at hst; split at hst <;> cases hst; cases h1
            obtain ⟨pre, s, ⟨t, ht⟩, hr, hrest⟩ := ih _ s1 (fun j => (H j).add (nowIn s0 j e)) (going_step g (hc e (by simp)) hst).1
              (fun h1 => tale_step (hs (hrun h1)) he1 hst (by rw [h1]; simp)) (fun ne hm => he ne (by simp [hm])) (fun e he => hc e (by simp [he])) h
            exact ⟨e :: pre, s, ⟨t, by simp [ht]⟩, by simp only [Complete.run, hst]; exact hr, hrest⟩
      | error f' =>
        rw [hst] at h
        cases h
        refine ⟨[], s0, by simp, rfl, ?_⟩
        cases e with
        | kb e =>
          simp only [Complete.step] at hst
          split at hst
          · cases hst
          · cases hst
          · rename_i hl; exact absurd hl local_kb_defined
        | task =>
          simp only [Complete.step] at hst
          split at hst
          · rename_i hcond
            have hlive := g.live hcond.1
            split at hst
            · cases hst
            · cases hst
            · rename_i f' hl
              cases hst
              simp only [Local.step] at hl
              split at hl
              · cases hl
              · rename_i hb
                have hb' : s0.loc.busy = false := by simpa using (show ¬ s0.loc.busy = true from hb)
                split at hl
                · cases hl
                · rename_i key hkey
                  rw [if_pos (show (Complete.seenLocal s0.serv.sh s0.loc).live = true from hlive)] at hl
                  split at hl
                  · rename_i f'' hk
                    cases hl
                    exact ⟨hcond.1, hcond.2, hb', .inl ⟨hlive, key, hkey, hk⟩⟩
                  · split at hl <;> cases hl
          · cases hst
        | done =>
          simp only [Complete.step] at hst
          split at hst
          · split at hst
            · cases hst
            · cases hst
            · rename_i hl; exact absurd hl local_done_defined
          · cases hst
        | net ne =>
          simp only [Complete.step] at hst
          split at hst
          · rename_i hcond
            split at hst
            · cases hst
            · cases hst
            · rename_i f' hv
              cases hst
              refine ⟨hcond.1, hcond.2.1, hcond.2.2, .inr ?_⟩
              have hall := hs hcond.1
              cases ne with
              | client tty =>
                simp only [TelnetServer.step] at hv
                split at hv
                · obtain ⟨w1, y, _, _, w2, _, _, e⟩ := start_defined A S (TelnetServer.cliState s0.serv.sh ⟨⟨s0.serv.sh.color, tty, false⟩, []⟩) ⟨⟨s0.serv.sh.color, tty, false⟩, []⟩
                  rw [e] at hv
                  cases hv
                · cases hv
              | error => simp only [TelnetServer.step] at hv; split at hv <;> cases hv
              | conn j ev =>
                simp only [TelnetServer.step] at hv
                split at hv
                · cases hv
                · rename_i c hl
                  split at hv
                  · rename_i f' hk
                    cases hv
                    obtain ⟨a1, k, rest, alive, a2, a3⟩ := step_error (served_seen s0.serv.sh (hall.1 j c hl)).order (he1 (.conn j ev) (List.mem_singleton.2 rfl) j ev (List.mem_singleton.2 rfl)) hk
                    exact ⟨j, c, hl, a1, k, rest, alive, a2, a3⟩
                  · cases hv
                  · cases hv
          · cases hst
        | ret => simp only [Complete.step] at hst; split at hst <;> cases hst
        | closeServer => simp only [Complete.step] at hst; split at hst <;> cases hst
        | destroy => simp only [Complete.step, Keyboard.step] at hst; split at hst <;> cases hst
        | join => simp only [Complete.step] at hst; split at hst <;> cases hst
        | drop => simp only [Complete.step] at hst; split at hst <;> cases hst
  exact main es _ _ (fun _ => .none) (going_start h0) (fun _ => ⟨(fun j l h => by cases h), fun _ _ => rfl⟩) he hc h

/-! ### Concrete cases -/

/-- The sample program when `Run` is called. -/
def complete0 : Complete.St (List Nat) (List Str) Bool := Complete.start local0

/-- The steps that bring a key of one byte to the scheduler. -/
def strikes (c : Byte) : List (Complete.Ev Bool) := [.kb (.arrive c), .kb .check, .kb .ready, .kb .getc, .kb .post]

/-- A client connects and enters `sub`. -/
def visit : List (Complete.Ev Bool) := [.net (.client false), .net (.conn 0 (.arrive bs!"sub\r\n"))] ++ (serve 5 0).map .net

/-- `exit` is typed, and the program ends. -/
def leave : List (Complete.Ev Bool) := (bs!"exit\n").flatMap strikes ++ List.replicate 5 .task ++ [.done, .ret, .closeServer, .destroy, .kb .check, .kb .ready, .join, .drop]

/-- What can be seen at the end: the calls, what has been stored, where the main thread is; and of the clients the menu, the commands entered, and whether the exit action of the session was called. -/
def finally0 (es : List (Complete.Ev Bool)) : Option ((List Nat × List Str × Complete.Phase) × List (Nat × List Str × Bool)) :=
  match Complete.run haltApp server0 (fun s => s.contains 99) 9 plat (fun _ => false) es complete0 with
  | .ok (some (s, none)) => some ((s.serv.sh.app, s.serv.sh.storage, s.phase), s.serv.conns.map (fun (c : Life (List Nat) (List Str)) => (c.tel.proc.w.current, c.tel.proc.w.hist.buffer, c.tel.proc.w.exit)))
  | _ => none

example : finally0 visit = some (([], [], .run), [(3, [bs!"sub"], false)]) := by rfl
example : finally0 leave = some (([99], [bs!"exit"], .over), []) := by rfl
example : ∃ l, Local.create haltApp (fun _ : Bool => false) true 9 Sample.world Sample.io = .ok (l, none) ∧ local0.kb.reader = l.kb.reader ∧ (Complete.start local0).phase = (Complete.start l).phase := ⟨_, rfl, rfl, rfl⟩

/-- The premises of the theorems about the local session and the clients. -/
example : OneByOne (visit ++ leave) ∧ (∀ e ∈ visit ++ leave, Peaceful e) ∧ (∀ e ∈ visit ++ leave, Behaved e) := by
  refine ⟨?_, by simp [visit, leave, strikes, serve, Peaceful], by simp [visit, leave, strikes, serve, Behaved]⟩
  intro e h
  simp [visit, leave, strikes, serve] at h
  rcases h with rfl | rfl | rfl <;> intro j ev hm <;> cases List.mem_singleton.1 hm <;> first | rfl | trivial

/-- What the client has sent and the keys handled in its session, and those handled in the local one. -/
example : (let r := tale haltApp server0 (fun s => s.contains 99) 9 plat (fun _ => false) 0 (visit ++ leave) complete0; (r.sent, r.keys)) = ([bs!"sub\r\n"], [.ascii 115, .ascii 117, .ascii 98, .ret]) ∧
    localKeys haltApp server0 (fun s => s.contains 99) 9 plat (fun _ => false) (visit ++ leave) complete0 = [.ascii 101, .ascii 120, .ascii 105, .ascii 116, .ret] := by decide +kernel

/-- After the scheduler has been stopped, eight steps are left; `C101_bounded` allows eleven. -/
example : ∃ s, Complete.run haltApp server0 (fun s => s.contains 99) 9 plat (fun _ => false) (visit ++ leave.take 30) complete0 = .ok (some (s, none)) ∧ s.serv.sh.app.contains 99 = true ∧ s.loc.kb.input = [] ∧ (leave.drop 30).length = 8 := ⟨_, rfl, rfl, rfl, rfl⟩

/-- Undefined behaviour as in `C101_defined`: the client is in the menu `sub`, the command `drop` of the local session removes it, and the client presses return. -/
example : Complete.run haltApp server0 (fun s => s.contains 99) 9 plat (fun _ => false) (visit ++ (bs!"sub drop\n").flatMap strikes ++ List.replicate 9 .task ++ [.done, .net (.conn 0 (.arrive bs!"\r\n"))] ++ (serve 2 0).map .net) complete0 =
    .error (.ub .dangling) := by rfl

/-- **C101 refuted** A client has entered a command when `exit` is typed in the local session: the program ends, but what the client has entered is not stored, and no exit action is called for its session. -/
theorem C101_unsaved_refuted : finally0 (visit ++ leave) = some (([99], [bs!"exit"], .over), [(3, [bs!"sub"], false)]) := by rfl

/-- **C101 refuted** After `exit`, the first byte of an escape sequence is typed: the scheduler has stopped, and the destructor of the local session waits for the reader thread, which waits for the next byte. The port of the server is
    closed, but the connections are not: the clients are neither served nor disconnected. -/
theorem C101_hangs_refuted : ∃ s, Complete.run haltApp server0 (fun s => s.contains 99) 9 plat (fun _ => false)
      (visit ++ (bs!"exit\n").flatMap strikes ++ [.kb (.arrive 27), .kb .check, .kb .ready, .kb .getc] ++ List.replicate 5 .task ++ [.done, .ret, .closeServer, .destroy]) complete0 = .ok (some (s, none)) ∧
    s.serv.sh.app.contains 99 = true ∧ s.phase = .joining ∧ (∀ c ∈ s.serv.conns, c.tel.proc.w.app.2 = true) ∧ s.serv.conns.length = 1 ∧ s.serv.accepting = false ∧
    ∀ e, Progress e → Complete.step haltApp server0 (fun s => s.contains 99) 9 plat (fun _ => false) s e = .ok none := by
  refine ⟨_, rfl, rfl, rfl, ?_, rfl, rfl, ?_⟩
  · intro c hc
    cases List.mem_singleton.1 hc
    rfl
  · intro e he
    cases e with
    | kb e => cases e <;> first | rfl | exact absurd he (by simp [Progress, Own])
    | _ => rfl

end Verif.Props
