import Verif.Model.Processor

/-!
# Model of the telnet session (`include/cli/detail/genericasioremotecli.h`, `include/cli/detail/server.h`)

The messages that `Command` writes to the standard error and output (307, 324) and the traces of `CLI_TELNET_TRACE` are not modelled. Accepting connections is modelled in `Net.lean`.
-/

namespace Verif.Telnet
open Terminal (Key)

/-! ### Output -/

/-- genericasioremotecli.h:57-66 `Encode`; server.h:101-110: every portion of text written to the session's stream is encoded and sent. -/
def encode : Str → Str
  | [] => []
  | c :: rest => if c = b%'\n' then b%'\r' :: c :: encode rest else c :: encode rest

/-! ### Protocol -/

/-- genericasioremotecli.h:420 -/
inductive State where
  | data | sub | waitWill | waitWont | waitDo | waitDont
  deriving DecidableEq, Repr

/-- genericasioremotecli.h:420-422 -/
structure Rx where
  state : State
  escape : Bool
  deriving DecidableEq, Repr

/-- genericasioremotecli.h:277-343 `Command`. -/
def command (s : State) (c : Byte) : Except Fault State :=
  if c = 240 then .ok (if s = .sub then .data else s)                       -- 303-308 SE
  else if 241 ≤ c.toNat ∧ c.toNat ≤ 249 then .ok .data                    -- 309-319 NOP ... GoAhead
  else if c = 250 then .ok .sub                                           -- 320-325 SB
  else if c = 251 then .ok .waitWill                                      -- 326-328
  else if c = 252 then .ok .waitWont                                      -- 329-331
  else if c = 253 then .ok .waitDo                                        -- 332-334
  else if c = 254 then .ok .waitDont                                      -- 335-337
  else if c = 255 then .error (.ub .assertion)                            -- 338-341
  else .ok s

/-- genericasioremotecli.h:403-409 `SendIacCmd`: what is written to the stream. -/
def iacCmd (action op : Byte) : Str := [255, action, op]

/-- genericasioremotecli.h:345-361 `RxWill`. -/
def rxWill (c : Byte) : Str :=
  if c = 3 then iacCmd 251 3 else if c = 31 then iacCmd 253 31 else iacCmd 254 c

/-- genericasioremotecli.h:370-386 `RxDo`. -/
def rxDo (c : Byte) : Str :=
  if c = 1 then iacCmd 253 1 else if c = 3 then iacCmd 251 3 else iacCmd 252 c

/-- What `Consume` does besides changing the state: bytes passed to `Output`, and text written to the stream. -/
structure Rcv where
  data : Str
  answer : Str
  deriving DecidableEq, Repr

/-- genericasioremotecli.h:248-275 `Data`, with 362-369, 387-402. -/
def data (s : State) (c : Byte) : State × Rcv :=
  match s with
  | .data => (.data, ⟨[c], []⟩)
  | .sub => (.sub, ⟨[], []⟩)
  | .waitWill => (.data, ⟨[], rxWill c⟩)
  | .waitWont => (.data, ⟨[], []⟩)
  | .waitDo => (.data, ⟨[], rxDo c⟩)
  | .waitDont => (.data, ⟨[], []⟩)

/-- genericasioremotecli.h:229-246 `Consume`. -/
def consume (r : Rx) (c : Byte) : Except Fault (Rx × Rcv) :=
  if r.escape then
    if c = 255 then .ok (⟨(data r.state c).1, false⟩, (data r.state c).2)
    else do
      let s ← command r.state c
      .ok (⟨s, false⟩, ⟨[], []⟩)
  else if c = 255 then .ok ({ r with escape := true }, ⟨[], []⟩)
  else .ok (⟨(data r.state c).1, false⟩, (data r.state c).2)

/-- genericasioremotecli.h:221-225 `OnDataReceived`: everything passed to `Output` and written, for one packet. -/
def onData (r : Rx) : Str → Except Fault (Rx × Rcv)
  | [] => .ok (r, ⟨[], []⟩)
  | c :: rest => do
    let (r, a) ← consume r c
    let (r, b) ← onData r rest
    .ok (r, ⟨a.data ++ b.data, a.answer ++ b.answer⟩)

/-- The same for a sequence of packets (server.h:61-77). -/
def onPackets (r : Rx) : List Str → Except Fault (Rx × Rcv)
  | [] => .ok (r, ⟨[], []⟩)
  | p :: rest => do
    let (r, a) ← onData r p
    let (r, b) ← onPackets r rest
    .ok (r, ⟨a.data ++ b.data, a.answer ++ b.answer⟩)

/-- genericasioremotecli.h:421-422 -/
def Rx.init : Rx := ⟨.data, false⟩

/-! ### Keys -/

/-- genericasioremotecli.h:545 -/
inductive Step where
  | s1 | s2 | s3 | s4 | wait0
  deriving DecidableEq, Repr

/-- genericasioremotecli.h:471-541 `Output`: the next step, and the key notified, if any. -/
def output : Step → Byte → Step × Option Key
  | .s1, c =>
    if c = 255 ∨ c = 4 then (.s1, some .eof)                 -- 478-480
    else if c = 8 ∨ c = 127 then (.s1, some .backspace)     -- 481-483
    else if c = 12 then (.s1, some .clear)                  -- 485-486
    else if c = 27 then (.s2, none)                         -- 487
    else if c = 13 then (.wait0, none)                      -- 488
    else (.s1, some (.ascii c))                             -- 489-493
  | .s2, c => if c = 91 then (.s3, none) else (.s1, some .ignored)  -- 497-509
  | .s3, c =>                                                      -- 511-522
    if c = 65 then (.s1, some .up)
    else if c = 66 then (.s1, some .down)
    else if c = 68 then (.s1, some .left)
    else if c = 67 then (.s1, some .right)
    else if c = 70 then (.s1, some .end)
    else if c = 72 then (.s1, some .home)
    else (.s4, none)
  | .s4, c => (.s1, some (if c = 126 then .canc else .ignored))    -- 524-530
  | .wait0, c => (.s1, some (if c = 0 ∨ c = 10 then .ret else .ignored))  -- 532-538

/-! ### The session -/

/-- A `CliTelnetSession`: the receiver, the key decoder, the keys posted to the scheduler and not yet handled, and the processor with the session. -/
structure Tel (σ τ : Type) where
  rx : Rx
  step : Step
  queue : List Key
  proc : Processor.Proc σ τ

section
variable {σ τ : Type} (A : App σ τ)

/-- `OnDataReceived` (221-225) for one byte. The key is posted (inputdevice.h:59-62). -/
def byte (t : Tel σ τ) (c : Byte) : Except Fault (Tel σ τ) := do
  let (rx, r) ← consume t.rx c
  let t := { t with rx := rx, proc := { t.proc with w := t.proc.w.put r.answer } }
  match r.data with
  | [d] =>
    match output t.step d with
    | (step, some k) => .ok { t with step := step, queue := t.queue ++ [k] }
    | (step, none) => .ok { t with step := step }
  | _ => .ok t

/-- genericasioremotecli.h:221-225 `OnDataReceived`. -/
def received (t : Tel σ τ) : Str → Except Fault (Tel σ τ)
  | [] => .ok t
  | c :: rest => do
    let t ← byte t c
    received t rest

/-- What the scheduler's thread executes. -/
inductive Ev where
  /-- data arrive from the client (server.h:71-75) -/
  | packet (s : Str)
  /-- the oldest posted key is handled -/
  | task
  /-- the client closes the connection: `OnDisconnect` (server.h:67-68), which does nothing (genericasioremotecli.h:99) -/
  | disconnect
  deriving DecidableEq, Repr

/-- One event. A task needs a posted key. -/
def event (fuel : Nat) (t : Tel σ τ) : Ev → Except Fault (Tel σ τ × Option Exn)
  | .packet s => do
    let t ← received t s
    .ok (t, none)
  | .task =>
    match t.queue with
    | [] => .ok (t, none)
    | k :: rest => do
      let (p, x) ← Processor.keypressed A fuel t.proc k
      .ok ({ t with queue := rest, proc := p }, x)
  | .disconnect => .ok (t, none)

/-- A sequence of events; an exception leaves the scheduler. -/
def events (fuel : Nat) : List Ev → Tel σ τ → Except Fault (Tel σ τ × Option Exn)
  | [], t => .ok (t, none)
  | e :: es, t => do
    let (t, x) ← event A fuel t e
    match x with
    | some e => .ok (t, some e)
    | none => events fuel es t

/-- genericasioremotecli.h:68-98 `TelnetSession::OnConnect`: what is written. -/
def greeting : Str := [255, 253, 34] ++ [255, 250, 34, 1, 0, 255, 240] ++ [255, 251, 1]

/-- genericasioremotecli.h:464-469 `CliTelnetSession::OnConnect`, on the session made by the constructor (454-461). -/
def connect (w : World σ τ) : Except Fault (Tel σ τ × Option Exn) :=
  match enterSession A (w.put greeting) with
  | (w, some e) => .ok (⟨Rx.init, .s1, [], ⟨w, ⟨[], 0⟩, true⟩⟩, some e)
  | (w, none) => do
    let w ← prompt w
    .ok (⟨Rx.init, .s1, [], ⟨w, ⟨[], 0⟩, true⟩⟩, none)

/-! ### The application of a telnet server -/

/-- User code of the application does not touch the connection (the second component: is the session connected?). -/
def lift (e : Effect σ) (conn : Bool) : Effect (σ × Bool) := ⟨(e.app, conn), e.acts, e.exn⟩

/-- genericasioremotecli.h:460: the exit action of the session: `_exitAction(_out), Disconnect()`; `none` is an empty `std::function` (no `ExitAction` was set on the server). server.h:55-59
    `Disconnect`: `shutdown` throws if the peer is no longer connected (`alive` is false), in which case the socket is not closed, and if the socket has already been closed (by an earlier `exit`). -/
def exitAction (server : Option (σ → Effect σ)) (alive : Bool) (s : σ × Bool) : Effect (σ × Bool) :=
  match server with
  | none => ⟨s, [], some (.std bs!"bad_function_call")⟩
  | some f =>
    match (f s.1).exn with
    | some e => ⟨((f s.1).app, s.2), (f s.1).acts, some e⟩
    | none =>
      if !s.2 then ⟨((f s.1).app, false), (f s.1).acts, some (.std bs!"shutdown: Bad file descriptor")⟩
      else if alive then ⟨((f s.1).app, false), (f s.1).acts, none⟩
      else ⟨((f s.1).app, s.2), (f s.1).acts, some (.std bs!"shutdown: Transport endpoint is not connected")⟩

/-- The application as a telnet session sees it. A server's `EnterAction` is stored but never used (567-570, 583). -/
def telnetApp (server : Option (σ → Effect σ)) (alive : Bool) : App (σ × Bool) τ where
  plat := A.plat
  handler fn s vals := lift (A.handler fn s.1 vals) s.2
  onException := A.onException.map (fun f s line e => lift (f s.1 line e) s.2)
  onWrong := A.onWrong.map (fun f s line => lift (f s.1 line) s.2)
  enterGlobal := A.enterGlobal.map (fun f s => lift (f s.1) s.2)
  exitGlobal := A.exitGlobal.map (fun f s => lift (f s.1) s.2)
  enterSession := none
  exitSession := some (exitAction server alive)
  store := A.store
  storeFails := A.storeFails
  stored := A.stored

/-- genericasioremotecli.h:583-585, the members of `CliGenericTelnetServer` that the user sets (550-575). -/
structure Server (σ : Type) where
  enterAction : Option (σ → Effect σ)
  exitAction : Option (σ → Effect σ)
  historySize : Nat

/-- genericasioremotecli.h:576-579 `CreateSession`, which passes on `exitAction` and `historySize`, and then `OnConnect` (server.h:45-49). -/
def accept (S : Server σ) (w : World σ τ) (io : Io) : Except Fault (Tel (σ × Bool) τ × Option Exn) :=
  let v := newSession A S.historySize w io
  connect (telnetApp A S.exitAction true)
    { app := (v.app, true), tree := v.tree, dis := v.dis, used := v.used, gen := v.gen, storage := v.storage, io := v.io, casts := v.casts, hist := v.hist,
      current := v.current, exit := v.exit, log := v.log }

end
end Verif.Telnet
