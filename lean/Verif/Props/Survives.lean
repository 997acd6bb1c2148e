import Verif.Props.TelnetServer

set_option linter.unusedSimpArgs false

/-!
# Property C120: what its clients do cannot end the program
-/

namespace Verif.Props
open Net Spec
open Terminal (Key)
open Telnet (Tel Server telnetApp)
open TelnetServer (Serv)
open Processor (Proc)

variable {σ τ : Type}

/-- The bytes contain neither Ctrl-D nor the data byte 255 (which is sent as two bytes 255). -/
def NoEof (s : Str) : Prop := 4 ∉ s ∧ ¬ [255, 255] <:+: s

/-- User code that is called when clients connect and when an exception is reported does not throw. -/
structure Steady (A : App σ τ) : Prop where
  enter : ∀ f, A.enterGlobal = some f → ∀ s, (f s).exn = none
  report : ∀ f, A.onException = some f → ∀ s l e, (f s l e).exn = none

/-- Why leaving a session may throw: there is no exit action, or it throws, or the client is gone, or the connection has been closed before, or the exit action of the `Cli` throws, or the storage does. -/
inductive LeavingFails (A : App σ τ) (S : Server σ) (alive isOpen : Bool) : Prop
  | none : S.exitAction = none → LeavingFails A S alive isOpen
  | throws (f s) : S.exitAction = some f → (f s).exn ≠ .none → LeavingFails A S alive isOpen
  | gone : alive = false → LeavingFails A S alive isOpen
  | closed : isOpen = false → LeavingFails A S alive isOpen
  | global (f s) : A.exitGlobal = some f → (f s).exn ≠ .none → LeavingFails A S alive isOpen
  | storage (t cmds) : A.storeFails t cmds ≠ .none → LeavingFails A S alive isOpen

/-! ### Proof -/

/-- An exception that leaves the handling of a key: the exception handler has thrown, or the key is Ctrl-D and leaving throws. -/
theorem keypressed_throws {A : App σ τ} {fuel : Nat} {p q : Proc σ τ} {k : Key} {e : Exn} (h : Processor.keypressed A fuel p k = .ok (q, some e)) :
    (∃ f s l e', A.onException = some f ∧ (f s l e').exn = some e) ∨ (k = .eof ∧ ∃ w, exitSession A p.w = .ok (w, some e)) := by
  unfold Processor.keypressed at h
  simp only [bind, Except.bind] at h
  cases ht : Terminal.keypressed p.term p.w.io k with
  | error f => rw [ht] at h; cases h
  | ok r =>
    obtain ⟨t, io, sy⟩ := r
    rw [ht] at h
    simp only at h
    cases sy with
    | nothing => cases h
    | eof =>
      have hk : k = .eof ∧ io = p.w.io := by
        cases k <;> simp only [Terminal.keypressed, bind, Except.bind] at ht
        all_goals (repeat' split at ht)
        all_goals first | (cases ht; exact ⟨rfl, rfl⟩) | cases ht
      obtain ⟨rfl, rfl⟩ := hk
      simp only [Processor.newCommand, bind, Except.bind] at h
      split at h
      · cases h
      · rename_i r hr
        obtain ⟨w, x⟩ := r
        cases h
        exact .inr ⟨rfl, w, hr⟩
    | command c =>
      simp only [Processor.newCommand, bind, Except.bind] at h
      split at h
      · cases h
      · rename_i r hr
        obtain ⟨w, x⟩ := r
        cases x with
        | some e' =>
          cases h
          exact .inl (C18_no_exception_escapes A fuel c _ _ e hr)
        | none =>
          simp only at h
          split at h <;> cases h
    | down => simp only [Processor.newCommand, bind, Except.bind] at h; split at h <;> cases h
    | up => simp only [Processor.newCommand, bind, Except.bind] at h; split at h <;> cases h
    | tab => simp only [Processor.newCommand, bind, Except.bind] at h; split at h <;> cases h
    | clear => simp only [Processor.newCommand, bind, Except.bind] at h; split at h <;> cases h

theorem leaving_throws {A : App σ τ} {S : Server σ} {alive : Bool} {w w' : World (σ × Bool) τ} {e : Exn} (h : exitSession (telnetApp A S.exitAction alive) w = .ok (w', some e)) :
    LeavingFails A S alive w.app.2 := by
  unfold exitSession at h
  simp only [telnetApp] at h
  split at h
  · rename_i w1 e1 h1
    have hx : (Telnet.exitAction S.exitAction alive w.app).exn = some e1 := congrArg Prod.snd h1
    unfold Telnet.exitAction at hx
    split at hx
    · rename_i hS; exact .none hS
    · rename_i f hS
      split at hx
      · rename_i e2 h2
        exact .throws f _ hS (by rw [h2]; simp)
      · split at hx
        · rename_i hc
          exact .closed (by simpa using hc)
        · split at hx
          · cases hx
          · rename_i ha
            exact .gone (by simpa using ha)
  · rename_i w1 h1
    split at h
    · rename_i w2 e2 h2
      cases hg : A.exitGlobal with
      | none => rw [hg] at h2; cases h2
      | some g =>
        rw [hg] at h2
        have hx : (Telnet.lift (g w1.app.1) w1.app.2).exn = some e2 := congrArg Prod.snd h2
        exact .global g w1.app.1 hg (by rw [show (g w1.app.1).exn = some e2 from hx]; simp)
    · split at h
      · cases h
      · rename_i cmds _
        split at h
        · rename_i e3 h3
          exact .storage _ cmds (by rw [h3]; simp)
        · cases h

theorem report_telnet {A : App σ τ} (hA : Steady A) {server : Option (σ → Effect σ)} {alive : Bool} {f} (hf : (telnetApp A server alive).onException = some f) (s l e) : (f s l e).exn = none := by
  simp only [telnetApp] at hf
  cases ho : A.onException with
  | none => rw [ho] at hf; cases hf
  | some g =>
    rw [ho] at hf
    cases hf
    exact hA.report g ho _ _ _

/-- An exception that leaves an event of a connection. -/
theorem conn_throws {A : App σ τ} {S : Server σ} (hA : Steady A) {fuel : Nat} {l l' : Life σ τ} {ev : Net.Ev} {e : Exn} (h : Net.step A S fuel l ev = .ok (some (l', some e))) :
    ∃ i alive, ev = .exec i alive ∧ l.queue[i]? = some (.key .eof) ∧ LeavingFails A S alive l.tel.proc.w.app.2 := by
  cases ev with
  | arrive d => simp only [Net.step] at h; split at h <;> cases h
  | lost => simp only [Net.step] at h; split at h <;> cases h
  | exec i alive =>
    simp only [Net.step] at h
    split at h
    · cases h
    · rename_i k hk
      split at h
      · split at h
        · cases h
        · rename_i q x hx
          have hx' : x = some e := by split at h <;> cases h <;> rfl
          subst hx'
          rcases keypressed_throws hx with ⟨f, s, ln, e', h1, h2⟩ | ⟨rfl, w, hw⟩
          · rw [report_telnet hA h1] at h2; cases h2
          · exact ⟨i, alive, rfl, hk, leaving_throws hw⟩
      · cases h
    · split at h
      · split at h <;> cases h
      · cases h
    · cases h

theorem seenLife_open (sh : Sessions.Shared σ τ) (l : Life σ τ) : (TelnetServer.seenLife sh l).tel.proc.w.app.2 = l.tel.proc.w.app.2 := rfl

/-- A byte that is not the second of two bytes 255: what is decoded is not 255, and an escape begins with 255 only. -/
theorem rxNext_noEof (r : Telnet.Rx) (b : Byte) (hr : r.escape = true → b ≠ 255) : (∀ c ∈ (rxNext r b).2.data, c = b ∧ b ≠ 255) ∧ ((rxNext r b).1.escape = true → b = 255) := by
  have hd : ∀ st : Telnet.State, ∀ c ∈ (Telnet.data st b).2.data, c = b := by
    intro st c h
    cases st <;> simp [Telnet.data] at h
    exact h
  have h := consume_ok r b
  unfold Telnet.consume at h
  split at h
  · rename_i he
    rw [if_neg (hr he)] at h
    obtain ⟨s', hs⟩ := command_ok r.state b (hr he)
    simp only [hs, bind, Except.bind] at h
    injection h with h
    rw [← h]
    exact ⟨by simp, fun h => by cases h⟩
  · split at h
    · rename_i hb
      injection h with h
      rw [← h]
      exact ⟨by simp, fun _ => hb⟩
    · rename_i hb
      injection h with h
      rw [← h]
      exact ⟨fun c hc => ⟨hd _ c hc, hb⟩, fun h => by cases h⟩

theorem NoEof.tail {b : Byte} {s : Str} (h : NoEof (b :: s)) : NoEof s := ⟨fun k => h.1 (by simp [k]), fun k => h.2 (k.trans (List.suffix_cons b s).isInfix)⟩

/-- What is decoded has no byte 255 and no byte 4. -/
theorem data_noEof (s : Str) : ∀ r : Telnet.Rx, NoEof s → (r.escape = true → s.head? ≠ some 255) → ∀ c ∈ (rxRun r s).2.data, c ≠ 4 ∧ c ≠ 255 := by
  induction s with
  | nil => intro r _ _ c hc; cases hc
  | cons b s ih =>
    intro r hs hr c hc
    obtain ⟨h1, h2⟩ := rxNext_noEof r b (fun h hb => hr h (by simp [hb]))
    simp only [rxRun, List.mem_append] at hc
    rcases hc with hc | hc
    · obtain ⟨rfl, h3⟩ := h1 c hc
      exact ⟨fun h => hs.1 (by simp [h]), h3⟩
    · refine ih _ hs.tail (fun he => ?_) c hc
      cases h2 he
      intro h
      cases s with
      | nil => cases h
      | cons d s =>
        cases h
        exact hs.2 ⟨[], s, rfl⟩

theorem keys_noEof (s : Str) : ∀ st, (∀ c ∈ s, c ≠ 4 ∧ c ≠ 255) → Key.eof ∉ (keysOf st s).2 := by
  induction s with
  | nil => intro st _ h; cases h
  | cons c s ih =>
    intro st hs h
    simp only [keysOf, List.mem_append] at h
    rcases h with h | h
    · obtain ⟨h4, h255⟩ := hs c (by simp)
      cases st <;> simp only [Telnet.output, h4, h255, or_self, if_false] at h <;> (repeat' split at h) <;> simp at h
    · exact ih _ (fun d hd => hs d (by simp [hd])) h

theorem typed_noEof {data sent : List Str} (hp : data <+: sent) (hs : NoEof sent.flatten) : Key.eof ∉ typedBy data := by
  obtain ⟨rest, rfl⟩ := hp
  have h1 : NoEof data.flatten := by
    rw [List.flatten_append] at hs
    exact ⟨fun k => hs.1 (by simp [k]), fun k => hs.2 (k.trans (List.prefix_append _ _).isInfix)⟩
  exact keys_noEof _ _ (data_noEof _ _ h1 (fun h => by cases h))

/-! ### C120 -/

/-- **C120** (part) If the enter action of the `Cli` and the exception handler do not throw, in every state: when an exception leaves the scheduler, a key Ctrl-D of some client is being handled, and leaving its session fails for one of
    the six reasons. So nothing else that clients send, no line, no malformed protocol, no connection that is made or lost makes an exception leave the scheduler. -/
theorem C120_cause_partial (A : App σ τ) (S : Server σ) (fuel : Nat) (hA : Steady A) (s s' : Serv σ τ) (ev : TelnetServer.Ev) (e : Exn) (h : TelnetServer.step A S fuel s ev = .ok (some (s', some e))) :
    ∃ j i alive l, ev = .conn j (.exec i alive) ∧ s.conns[j]? = some l ∧ l.queue[i]? = some (.key .eof) ∧ LeavingFails A S alive l.tel.proc.w.app.2 := by
  rcases step_cases h with ⟨tty, l, rfl, _, hl, rfl⟩ | ⟨rfl, rfl⟩ | ⟨j, ev, l, l', rfl, hl, hs, rfl⟩
  · obtain ⟨w1, x, _, hx, w2, _, _, h5⟩ := start_defined A S (TelnetServer.cliState s.sh ⟨⟨s.sh.color, tty, false⟩, []⟩) ⟨⟨s.sh.color, tty, false⟩, []⟩
    rw [h5] at hl
    injection hl with hl
    have : x = some e := congrArg Prod.snd hl
    rw [this] at hx
    cases hg : A.enterGlobal with
    | none => rw [hg] at hx; cases hx
    | some g =>
      rw [hg] at hx
      exact absurd ((hA.enter g hg _).symm.trans hx.symm) (by simp)
  · simp only [TelnetServer.step] at h
    split at h <;> cases h
  · obtain ⟨i, alive, rfl, h2, h3⟩ := conn_throws hA hs
    exact ⟨j, i, alive, l, rfl, hl, h2, h3⟩

/-- **C120** (part) As long as no client sends Ctrl-D or the data byte 255, no exception leaves the scheduler, whatever else the clients send (lines, negotiations, malformed ones), however it is cut into packets, whenever they connect and
    disconnect, whatever the commands do and throw, and with or without exit action. (One thread runs the scheduler; the enter action of the `Cli` and the exception handler do not throw.) -/
theorem C120_goes_on_partial (A : App σ τ) (S : Server σ) (fuel : Nat) (hA : Steady A) (sh : Sessions.Shared σ τ) (es : List TelnetServer.Ev) (he : Serial es) (hn : ∀ j, NoEof (sentBy j es).flatten)
    (s : Serv σ τ) (h : TelnetServer.run A S fuel es (TelnetServer.init sh) = .ok (some s)) (ev : TelnetServer.Ev) (s' : Serv σ τ) (x : Option Exn) (hs : TelnetServer.step A S fuel s ev = .ok (some (s', x))) :
    x = none := by
  cases x with
  | none => rfl
  | some e =>
    obtain ⟨j, i, alive, l, rfl, h1, h2, _⟩ := C120_cause_partial A S fuel hA s s' ev e hs
    have hl := (allServed_run es (H := fun _ => .none) ⟨(fun j l h => by cases h), fun _ _ => rfl⟩ he h).1 j l h1
    have e1 : (Seen.none).add (story A S fuel j es (TelnetServer.init sh)) = story A S fuel j es (TelnetServer.init sh) := by simp [Seen.add, Seen.none]
    simp only [e1] at hl
    have hw := hl.within
    rw [story_sent j es h] at hw
    refine absurd ?_ (typed_noEof hw (hn j))
    rw [← hl.keys]
    refine List.mem_append_right _ ?_
    simp only [keysIn, List.mem_filterMap]
    exact ⟨_, List.mem_of_getElem? h2, rfl⟩

/-- What leaves the scheduler in an execution. -/
def escaping {σ τ : Type} (A : App σ τ) (S : Server σ) (fuel : Nat) : List TelnetServer.Ev → Serv σ τ → List Exn
  | [], _ => []
  | e :: es, s =>
    match TelnetServer.step A S fuel s e with
    | .ok (some (s, x)) => x.toList ++ escaping A S fuel es s
    | _ => []

/-- A server with an exit action. -/
def polite : Server (List Nat) := ⟨none, some (fun s => ⟨9 :: s, [.out bs!"bye\n"], none⟩), 10⟩

/-- Two clients; one enters a command and `exit` twice in one packet, and is gone. The other one sends malformed negotiations. Nothing leaves the scheduler. -/
def rude : List TelnetServer.Ev :=
  [.client false, .client true, .conn 0 (.arrive (bs!"any" ++ [13, 10] ++ bs!"exit" ++ [13, 10] ++ bs!"exit" ++ [13, 0])), .conn 1 (.arrive [255, 251, 255, 240, 255, 250, 13]), .conn 0 (.exec 0 true), .conn 1 (.exec 0 true)] ++
    serve 14 0 ++ [.conn 1 .lost, .conn 1 (.exec 0 true)]

example : Serial rude ∧ (∀ j, NoEof (sentBy j rude).flatten) ∧ Steady Sample.app ∧ escaping Sample.app polite 5 rude (TelnetServer.init shared0) = [] ∧
    ((TelnetServer.run Sample.app polite 5 rude (TelnetServer.init shared0)).toOption.join.map (fun s => s.conns.map (fun l => (l.queue.length, l.tel.proc.w.app.2)))) = some [(1, false), (0, true)] := by
  refine ⟨?_, ?_, ⟨(by rintro f h; cases h), (by rintro f h; cases h)⟩, by decide +kernel, by decide +kernel⟩
  · have h : ∀ ev ∈ rude, (match ev with | .conn _ (.exec i _) => i == 0 | _ => true) = true := by decide +kernel
    intro j e hm
    have := h _ hm
    cases e <;> simp_all [OneThread]
  intro j
  match j with
  | 0 => constructor <;> decide +kernel
  | 1 => constructor <;> decide +kernel
  | j + 2 => exact ⟨by simp [rude, sentBy, serve], by simp [rude, sentBy, serve]⟩

/-- **C120** Refuted: a client sends Ctrl-D twice in one packet. -/
theorem C120_twice_refuted : escaping Sample.app polite 5 ([.client false, .conn 0 (.arrive [4, 4])] ++ serve 3 0) (TelnetServer.init shared0) = [.std bs!"shutdown: Bad file descriptor"] := by decide +kernel

/-- **C120** Refuted: a client sends Ctrl-D and is gone before it is handled. -/
theorem C120_gone_refuted : escaping Sample.app polite 5 [.client false, .conn 0 (.arrive [4]), .conn 0 (.exec 0 true), .conn 0 (.exec 0 false)] (TelnetServer.init shared0) =
    [.std bs!"shutdown: Transport endpoint is not connected"] := by decide +kernel

/-- **C120** Refuted: a server has no exit action, and a client sends Ctrl-D. -/
theorem C120_no_exit_action_refuted : escaping Sample.app ⟨none, none, 10⟩ 5 [.client false, .conn 0 (.arrive [4]), .conn 0 (.exec 0 true), .conn 0 (.exec 0 true)] (TelnetServer.init shared0) =
    [.std bs!"bad_function_call"] := by decide +kernel

end Verif.Props
