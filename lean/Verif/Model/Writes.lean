import Verif.Model.Sessions
import Verif.Model.Telnet

/-!
# Model of the connections of several telnet sessions (`include/cli/detail/server.h`)

The scheduler is run by one thread. While it executes a task, each portion of text that is written to the stream of a session is encoded and sent with `asio::write` (server.h:79-87), which returns when the
connection has taken all the bytes, or with an error, which is ignored (`OnDisconnect` and `OnError` do nothing). A connection takes bytes as long as there is room in the buffers between server and client;
it gets room when the client reads. The sessions exist (no creation and destruction here), and are operated as in `Model/Sessions`; a telnet session does nothing else when it handles a key.
-/

namespace Verif.Writes
open Sessions (State Op)

variable {σ τ : Type}

/-- The server with its sessions and connections. -/
structure Hub (σ τ : Type) where
  s : State σ τ
  /-- the tasks posted to the scheduler and not executed yet -/
  queue : List Op
  /-- what the task being executed has to send yet: connection and bytes, in order -/
  writes : List (Nat × Str)
  /-- how many bytes the buffers of a connection take at the moment -/
  room : Nat → Nat
  /-- writing to the connection fails -/
  gone : Nat → Bool
  /-- what has been sent over a connection (ghost) -/
  sent : Nat → Str
  /-- the tasks executed (ghost) -/
  done : List Op

/-- What can happen. -/
inductive Ev where
  /-- a task is posted -/
  | post (op : Op)
  /-- the scheduler's thread takes the oldest task; the portions of text it writes, in order -/
  | exec (texts : List (Nat × Str))
  /-- `asio::write` hands over some bytes -/
  | take (k : Nat)
  /-- `asio::write` returns with an error -/
  | fail
  /-- a client reads some bytes -/
  | read (j k : Nat)
  /-- a connection breaks -/
  | lose (j : Nat)

/-- The texts for one connection. -/
def textOf (ws : List (Nat × Str)) (j : Nat) : Str := (ws.filter (fun w => w.1 == j)).flatMap (·.2)

def isLife : Op → Bool
  | .create _ _ _ | .destroy _ => true
  | _ => false

/-- server.h:101-110 `xsputn`, `overflow`: the text is encoded; empty ones are not considered. -/
def encoded (ws : List (Nat × Str)) : List (Nat × Str) := (ws.filter (fun w => !w.2.isEmpty)).map (fun w => (w.1, Telnet.encode w.2))

/-- The events, and what they lead to. -/
inductive Step (A : Nat → App σ τ) : Hub σ τ → Ev → Hub σ τ → Prop where
  | post (h : Hub σ τ) (op : Op) : isLife op = false → Step A h (.post op) { h with queue := h.queue ++ [op] }
  | exec (h : Hub σ τ) (op : Op) (rest : List Op) (s' : State σ τ) (texts : List (Nat × Str)) : h.writes = [] → h.queue = op :: rest → Sessions.step A h.s op = .ok s' →
      (∀ j, h.s.live j = true → (s'.own j).out = (h.s.own j).out ++ textOf texts j) → (∀ w ∈ texts, h.s.live w.1 = true) →
      Step A h (.exec texts) { h with s := s', queue := rest, writes := encoded texts, done := h.done ++ [op] }
  | take (h : Hub σ τ) (j : Nat) (b : Str) (rest : List (Nat × Str)) (k : Nat) : h.writes = (j, b) :: rest → h.gone j = false → 0 < k → k ≤ b.length → k ≤ h.room j →
      Step A h (.take k) { h with
        writes := if k = b.length then rest else (j, b.drop k) :: rest
        room := fun i => if i = j then h.room i - k else h.room i
        sent := fun i => if i = j then h.sent i ++ b.take k else h.sent i }
  | fail (h : Hub σ τ) (j : Nat) (b : Str) (rest : List (Nat × Str)) : h.writes = (j, b) :: rest → h.gone j = true → Step A h .fail { h with writes := rest }
  | read (h : Hub σ τ) (j k : Nat) : Step A h (.read j k) { h with room := fun i => if i = j then h.room i + k else h.room i }
  | lose (h : Hub σ τ) (j : Nat) : Step A h (.lose j) { h with gone := fun i => if i = j then true else h.gone i }

/-- A sequence of events. -/
inductive Run (A : Nat → App σ τ) : Hub σ τ → List Ev → Hub σ τ → Prop where
  | nil (h : Hub σ τ) : Run A h [] h
  | cons {h h1 h2 : Hub σ τ} {e : Ev} {es : List Ev} : Step A h e h1 → Run A h1 es h2 → Run A h (e :: es) h2

/-- The server when nothing has been done yet: what the sessions have written so far has been sent. -/
def Hub.init (s : State σ τ) (room : Nat → Nat) : Hub σ τ := ⟨s, [], [], room, fun _ => false, fun j => Telnet.encode (s.own j).out, []⟩

end Verif.Writes
