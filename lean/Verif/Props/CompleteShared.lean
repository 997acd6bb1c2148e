import Verif.Props.Complete

set_option linter.unusedSimpArgs false

/-!
# Property C101, continued: what the local session and the clients share, and what is left of them at the end
-/

namespace Verif.Props
open Spec
open Keyboard (Kb decode)
open Terminal (Key)
open TelnetServer (Serv)
open Net (Life Task owned)
open Telnet (Server telnetApp)

variable {σ τ α : Type}

/-! ### What is shared -/

/-- The state of a session agrees with what is shared. -/
structure Agrees (sh : Sessions.Shared σ τ) (w : World σ τ) : Prop where
  app : w.app = sh.app
  tree : w.tree = sh.tree
  dis : w.dis = sh.dis
  used : w.used = sh.used
  gen : w.gen = sh.gen
  storage : w.storage = sh.storage
  color : w.io.style.color = sh.color

/-- What belongs to a session is the same in two states. -/
structure OwnSame (w w' : World σ τ) : Prop where
  out : w'.io.out = w.io.out
  tty : w'.io.style.tty = w.io.style.tty
  forced : w'.io.style.forced = w.io.style.forced
  hist : w'.hist = w.hist
  current : w'.current = w.current
  exit : w'.exit = w.exit
  log : w'.log = w.log

/-- **C101** A key of the local session is handled in the state that the sessions before it have left: it sees the application, the menus, the storage and the colour as the last one has left them, and its own line, menu, history and exit
    state as they were; and what it leaves is what the next one will see. The texts that it has written to `Cli::cout()` appear on the streams of all clients that have a session, after what is there. Nothing else changes for the clients. -/
theorem C101_shared (A : App σ τ) (S : Server σ) (stopped : σ → Bool) (fuel : Nat) (p : Platform) (manual : α → α) (s s' : Complete.St σ τ α) (x : Option Exn)
    (h : Complete.step A S stopped fuel p manual s .task = .ok (some (s', x))) :
    ∃ key q, s.loc.kb.posted[s.loc.handled]? = some key ∧ s'.loc.handled = s.loc.handled + 1 ∧ Agrees s.serv.sh q.w ∧ OwnSame s.loc.proc.w q.w ∧ q.w.casts = [] ∧ q.term = s.loc.proc.term ∧
      Processor.keypressed A fuel q key = .ok (s'.loc.proc, x) ∧ Agrees s'.serv.sh s'.loc.proc.w ∧
      s'.serv.conns.length = s.serv.conns.length ∧ s'.serv.accepting = s.serv.accepting ∧
      ∀ (j : Nat) (c : Life σ τ), s.serv.conns[j]? = some c → s'.serv.conns[j]? = some (told (if owned c.op c.queue then s'.loc.proc.w.casts else []) c) := by
  simp only [Complete.step] at h
  split at h
  · rename_i hr
    split at h
    · rename_i l x' hl
      cases h
      simp only [Local.step] at hl
      split at hl
      · cases hl
      · split at hl
        · cases hl
        · rename_i key hk
          split at hl
          · split at hl
            · cases hl
            · rename_i q' y hq
              have key1 : ∀ l' : Local.St σ τ α, l'.proc = q' → l'.handled = s.loc.handled + 1 → (l = l' ∧ x = y) →
                  ∃ key q, s.loc.kb.posted[s.loc.handled]? = some key ∧ l.handled = s.loc.handled + 1 ∧ Agrees s.serv.sh q.w ∧ OwnSame s.loc.proc.w q.w ∧ q.w.casts = [] ∧ q.term = s.loc.proc.term ∧
                    Processor.keypressed A fuel q key = .ok (l.proc, x) ∧ Agrees (Sessions.shared l.proc.w) l.proc.w ∧
                    (s.serv.conns.map (TelnetServer.hears l.proc.w.casts.flatten)).length = s.serv.conns.length ∧ s.serv.accepting = s.serv.accepting ∧
                    ∀ (j : Nat) (c : Life σ τ), s.serv.conns[j]? = some c → (s.serv.conns.map (TelnetServer.hears l.proc.w.casts.flatten))[j]? = some (told (if owned c.op c.queue then l.proc.w.casts else []) c) := by
                rintro l' h1 h2 ⟨rfl, rfl⟩
                refine ⟨key, (Complete.seenLocal s.serv.sh s.loc).proc, hk, h2, ⟨rfl, rfl, rfl, rfl, rfl, rfl, rfl⟩, ⟨rfl, rfl, rfl, rfl, rfl, rfl, rfl⟩, rfl, rfl, h1 ▸ hq, ⟨rfl, rfl, rfl, rfl, rfl, rfl, rfl⟩, by simp, rfl, ?_⟩
                intro j c hc
                rw [List.getElem?_map, hc, Option.map_some, hears_told]
                by_cases ho : owned c.op c.queue = true
                · simp [ho]
                · simp [ho, told_nil]
              split at hl
              · cases hl; exact key1 _ rfl rfl ⟨rfl, rfl⟩
              · cases hl; exact key1 _ rfl rfl ⟨rfl, rfl⟩
          · split at hl <;> cases hl
    · cases h
    · cases h
  · cases h

/-- **C101** And the other way round: when a key of client `j` is handled, or when it connects, the texts that are written to `Cli::cout()` appear on the stream of the local session, the same as on the streams of the other clients, after what
    is there; and nothing else changes for the local session: neither its line, its menu, its history, its exit state nor its keyboard. What is shared is as the session of the client has left it. -/
theorem C101_heard (A : App σ τ) (S : Server σ) (stopped : σ → Bool) (fuel : Nat) (p : Platform) (manual : α → α) (s s' : Complete.St σ τ α) (x : Option Exn) (e : TelnetServer.Ev)
    (h : Complete.step A S stopped fuel p manual s (.net e) = .ok (some (s', x))) :
    TelnetServer.step A S fuel s.serv e = .ok (some (s'.serv, x)) ∧ ∃ texts : List Str,
      s'.loc = { s.loc with proc := { s.loc.proc with w := { s.loc.proc.w with io := { s.loc.proc.w.io with out := s.loc.proc.w.io.out ++ texts.flatten } } } } ∧
      (e = .error → texts = []) ∧ (∀ tty, e = .client tty → ∃ c, s'.serv.conns[s.serv.conns.length]? = some c ∧ texts = c.tel.proc.w.casts) ∧
      (∀ j ev, e = .conn j ev → ∃ c, s'.serv.conns[j]? = some c ∧ texts = c.tel.proc.w.casts) ∧
      ∀ (j : Nat) (c : Life σ τ), (∀ ev, e ≠ .conn j ev) → s.serv.conns[j]? = some c → s'.serv.conns[j]? = some (told (if owned c.op c.queue then texts else []) c) := by
  simp only [Complete.step] at h
  have fin : ∀ (texts : List Str) (j : Nat) (c : Life σ τ), s.serv.conns[j]? = some c → (s.serv.conns.map (TelnetServer.hears texts.flatten))[j]? = some (told (if owned c.op c.queue then texts else []) c) := by
    intro texts j c hc
    rw [List.getElem?_map, hc, Option.map_some, hears_told]
    by_cases ho : owned c.op c.queue = true
    · simp [ho]
    · simp [ho, told_nil]
  split at h
  · split at h
    · rename_i v x' hv
      cases h
      refine ⟨hv, ?_⟩
      cases e with
      | client tty =>
        simp only [TelnetServer.step] at hv
        split at hv
        · split at hv
          · cases hv
          · rename_i l y hl
            cases hv
            refine ⟨l.tel.proc.w.casts, ?_, (fun h => by cases h), ?_, (fun j ev h => by cases h), ?_⟩
            · simp only [Complete.casts, hl, Complete.fresh]; rfl
            · intro t _; exact ⟨l, by simp, rfl⟩
            · intro j c _ hc
              have hlt : j < s.serv.conns.length := by
                rcases Nat.lt_or_ge j s.serv.conns.length with h | h
                · exact h
                · rw [List.getElem?_eq_none h] at hc; cases hc
              simp only
              rw [List.getElem?_append_left (by simpa using hlt)]
              exact fin _ j c hc
        · cases hv
      | error =>
        simp only [TelnetServer.step] at hv
        split at hv
        · cases hv
          refine ⟨[], by simp [Complete.casts, Complete.hearsLocal], fun _ => rfl, (fun t h => by cases h), (fun j ev h => by cases h), ?_⟩
          intro j c _ hc
          rw [hc]; simp [told_nil]
        · cases hv
      | conn i ev =>
        simp only [TelnetServer.step] at hv
        split at hv
        · cases hv
        · rename_i l0 hl0
          split at hv
          · cases hv
          · cases hv
          · rename_i l y hl
            cases hv
            have hlt : i < s.serv.conns.length := by
              rcases Nat.lt_or_ge i s.serv.conns.length with h | h
              · exact h
              · rw [List.getElem?_eq_none h] at hl0; cases hl0
            refine ⟨l.tel.proc.w.casts, ?_, (fun h => by cases h), (fun t h => by cases h), ?_, ?_⟩
            · simp only [Complete.casts, hl0, hl, Complete.fresh]; rfl
            · intro j ev' he
              cases he
              refine ⟨l, ?_, rfl⟩
              simp only
              rw [List.getElem?_set_self (by simpa using hlt)]
            · intro j c hj hc
              have hij : i ≠ j := fun e => hj ev (by rw [e])
              simp only
              rw [List.getElem?_set_ne hij]
              exact fin _ j c hc
    · cases h
    · cases h
  · cases h

/-! ### The end -/

/-- **C101** When the program is over after it has been stopped, every connection has been closed, nothing is left in the queue, and no handler holds a session; what the clients have entered and seen is as it was. Nothing else has happened to
    the sessions of the clients until then: they have been told nothing, and no exit action has been called. -/
theorem C101_dropped (A : App σ τ) (S : Server σ) (stopped : σ → Bool) (fuel : Nat) (p : Platform) (manual : α → α) (s s' : Complete.St σ τ α) (hst : stopped s.serv.sh.app = true) (hp : s.phase = .run) (es : List (Complete.Ev α)) (x : Option Exn)
    (h : Complete.run A S stopped fuel p manual es s = .ok (some (s', x))) (j : Nat) (c : Life σ τ) (hc : s.serv.conns[j]? = some c) :
    ∃ c', s'.serv.conns[j]? = some c' ∧ OwnSame c.tel.proc.w c'.tel.proc.w ∧ c'.tel.proc.term = c.tel.proc.term ∧ c'.tel.proc.w.storage = c.tel.proc.w.storage ∧ c'.tel.proc.w.app.1 = c.tel.proc.w.app.1 ∧
      (s'.phase ≠ .over → c' = c) ∧ (s'.phase = .over → c'.tel.proc.w.app.2 = false ∧ c'.queue = [] ∧ owned c'.op c'.queue = false) := by
  have e := ((C101_after_stop A S stopped fuel p manual s hst hp es).2 s' x h).2.2.2.2
  by_cases ho : s'.phase = .over
  · rw [if_pos ho] at e
    refine ⟨Complete.dropped c, by rw [e, List.getElem?_map, hc]; rfl, ⟨rfl, rfl, rfl, rfl, rfl, rfl, rfl⟩, rfl, rfl, rfl, fun h => absurd ho h, fun _ => ⟨rfl, rfl, rfl⟩⟩
  · rw [if_neg ho] at e
    exact ⟨c, by rw [e, hc], ⟨rfl, rfl, rfl, rfl, rfl, rfl, rfl⟩, rfl, rfl, rfl, fun _ => rfl, fun h => absurd h ho⟩

/-- The objects that exist in a phase of the program. -/
structure Standing (s : Complete.St σ τ α) : Prop where
  server : s.phase ≠ .run → s.phase ≠ .returned → s.serv.accepting = false
  session : s.phase = .noSession ∨ s.phase = .over → s.loc.live = false

theorem standing_step {A : App σ τ} {S : Server σ} {stopped : σ → Bool} {fuel : Nat} {p : Platform} {manual : α → α} {s s' : Complete.St σ τ α} {e : Complete.Ev α} {x : Option Exn} (g : Standing s)
    (h : Complete.step A S stopped fuel p manual s e = .ok (some (s', x))) : Standing s' := by
  cases e with
  | kb e =>
    simp only [Complete.step] at h
    split at h
    · rename_i l y hl
      cases h
      obtain ⟨_, _, k, _, rfl⟩ := local_kb hl
      exact ⟨g.server, g.session⟩
    · cases h
    · cases h
  | task =>
    simp only [Complete.step] at h
    split at h
    · rename_i hr
      split at h
      · cases h; exact ⟨(fun h => absurd hr.1 h), (fun h => by rcases h with h | h <;> rw [hr.1] at h <;> cases h)⟩
      · cases h
      · cases h
    · cases h
  | done =>
    simp only [Complete.step] at h
    split at h
    · rename_i hr
      split at h
      · cases h; exact ⟨(fun h => absurd hr h), (fun h => by rcases h with h | h <;> rw [hr] at h <;> cases h)⟩
      · cases h
      · cases h
    · cases h
  | net e =>
    simp only [Complete.step] at h
    split at h
    · rename_i hr
      split at h
      · cases h; exact ⟨(fun h => absurd hr.1 h), (fun h => by rcases h with h | h <;> rw [hr.1] at h <;> cases h)⟩
      · cases h
      · cases h
    · cases h
  | ret =>
    simp only [Complete.step] at h
    split at h
    · cases h; exact ⟨(fun _ h => absurd rfl h), (fun h => by rcases h with h | h <;> cases h)⟩
    · cases h
  | closeServer =>
    simp only [Complete.step] at h
    split at h
    · cases h; exact ⟨(fun _ _ => rfl), (fun h => by rcases h with h | h <;> cases h)⟩
    · cases h
  | destroy =>
    simp only [Complete.step] at h
    split at h
    · rename_i hr
      split at h
      · cases h
      · cases h; exact ⟨(fun _ _ => g.server (by rw [hr]; simp) (by rw [hr]; simp)), (fun h => by rcases h with h | h <;> cases h)⟩
    · cases h
  | join =>
    simp only [Complete.step] at h
    split at h
    · rename_i hr
      cases h; exact ⟨(fun _ _ => g.server (by rw [hr.1]; simp) (by rw [hr.1]; simp)), (fun _ => rfl)⟩
    · cases h
  | drop =>
    simp only [Complete.step] at h
    split at h
    · rename_i hr
      cases h; exact ⟨(fun _ _ => g.server (by rw [hr]; simp) (by rw [hr]; simp)), (fun _ => g.session (.inl hr))⟩
    · cases h

/-- **C101** When the program is over, the port is closed and the local session has been destroyed; the port is closed as soon as the server has been destroyed, before the destructor of the local session begins to wait. -/
theorem C101_destroyed (A : App σ τ) (S : Server σ) (stopped : σ → Bool) (fuel : Nat) (p : Platform) (manual : α → α) (l : Local.St σ τ α) (es : List (Complete.Ev α)) (s : Complete.St σ τ α) (x : Option Exn)
    (h : Complete.run A S stopped fuel p manual es (Complete.start l) = .ok (some (s, x))) :
    (s.phase = .joining ∨ s.phase = .over → s.serv.accepting = false) ∧ (s.phase = .over → s.loc.live = false) := by
  have main : ∀ (es : List (Complete.Ev α)) (s0 : Complete.St σ τ α), Standing s0 → Complete.run A S stopped fuel p manual es s0 = .ok (some (s, x)) → Standing s := by
    intro es
    induction es with
    | nil => intro s0 g h; cases h; exact g
    | cons e es ih =>
      intro s0 g h
      simp only [Complete.run] at h
      split at h
      · cases h
      · cases h
      · rename_i h1; cases h; exact standing_step g h1
      · rename_i h1; exact ih _ (standing_step g h1) h
  have g := main es _ ⟨(fun h => absurd rfl h), (fun h => by rcases h with h | h <;> cases h)⟩ h
  refine ⟨fun h => ?_, fun h => g.session (.inr h)⟩
  rcases h with h | h <;> exact g.server (by rw [h]; simp) (by rw [h]; simp)

/-! ### Concrete cases -/

/-- One client is connected when the program ends, so that the statements about the end are about something. -/
example : ∃ s, Complete.run haltApp server0 (fun s => s.contains 99) 9 plat (fun _ => false) (visit ++ leave) complete0 = .ok (some (s, none)) ∧ s.phase = .over ∧ s.serv.conns.length = 1 ∧ s.serv.accepting = false ∧ s.loc.live = false :=
  ⟨_, rfl, rfl, rfl, rfl, rfl⟩

/-- A key of the local session is handled while a client is connected. -/
example : ∃ s s', Complete.run haltApp server0 (fun s => s.contains 99) 9 plat (fun _ => false) (visit ++ strikes b%'a') complete0 = .ok (some (s, none)) ∧
    Complete.step haltApp server0 (fun s => s.contains 99) 9 plat (fun _ => false) s .task = .ok (some (s', none)) ∧ s.serv.conns.length = 1 := ⟨_, _, rfl, rfl, rfl⟩

/-- A client runs a command that writes to `Cli::cout()`: it appears on the terminal of the local session; and the other way round. -/
example : ∃ s s1 s', Complete.run loud server0 (fun _ => false) 9 plat (fun _ => false) ([.net (.client false), .net (.conn 0 (.arrive bs!"any\r\n"))] ++ (serve 4 0).map .net) complete0 = .ok (some (s, none)) ∧
    Complete.run loud server0 (fun _ => false) 9 plat (fun _ => false) ((serve 1 0).map .net) s = .ok (some (s1, none)) ∧ s1.loc.proc.w.io.out = s.loc.proc.w.io.out ++ bs!"hi" ∧
    Complete.run loud server0 (fun _ => false) 9 plat (fun _ => false) ((bs!"any\n").flatMap strikes ++ List.replicate 4 .task) s1 = .ok (some (s', none)) ∧
    s'.serv.conns.map (fun c => c.tel.proc.w.io.out) = s1.serv.conns.map (fun c => c.tel.proc.w.io.out ++ bs!"hi") := ⟨_, _, _, rfl, rfl, rfl, rfl, rfl⟩

end Verif.Props
