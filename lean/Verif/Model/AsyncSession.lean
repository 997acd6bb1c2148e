import Verif.Model.FileSession

/-!
# Model of `GenericCliAsyncSession` (`include/cli/detail/genericcliasyncsession.h`)

The operation `async_read_until` of asio: if the buffer contains a newline, the handler is called with the number of characters up to it; otherwise more characters are read, and at the end of the input (or when
reading fails, or when the descriptor is closed) the handler is called with an error. The handler is called later, by the scheduler. The error `not_found` (75) is reported when a buffer of
maximal size (`SIZE_MAX`, as none is given) is full, and is not modelled. One thread runs the scheduler.
-/

namespace Verif.Async
open FileSession (cut)

/-- A session and what is associated with it. -/
structure St (σ τ : Type) where
  w : World σ τ
  /-- genericcliasyncsession.h:92 `inputBuffer` -/
  buf : Str
  /-- a read operation has been started, and its handler has not been called yet -/
  reading : Bool
  /-- the session has not been destroyed -/
  live : Bool
  /-- everything read so far (ghost) -/
  got : Str
  /-- the lines that `Feed` was called with (ghost) -/
  fed : List Str

/-- What can happen. -/
inductive Ev where
  /-- characters are read into the buffer -/
  | data (s : Str)
  /-- the handler is called with a line -/
  | line
  /-- the handler is called with an error -/
  | fail
  /-- the session is destroyed: the operation in progress is cancelled, and its handler will be called nevertheless (52-55) -/
  | destroy
  deriving DecidableEq, Repr

section
variable {σ τ : Type} (A : App σ τ)

/-- genericcliasyncsession.h:59-71 `Read`. -/
def read (s : St σ τ) : Except Fault (St σ τ) :=
  match prompt s.w with
  | .error f => .error f
  | .ok w => .ok { s with w := w, reading := true }

/-- genericcliasyncsession.h:46-51, the constructor: history size 1. -/
def create (w : World σ τ) (io : Io) : Except Fault (St σ τ) :=
  read { w := newSession A 1 w io, buf := [], reading := false, live := true, got := [], fed := [] }

/-- genericcliasyncsession.h:73-90 `NewLine`. One event, with the exception that leaves the scheduler, if any. Events that are not possible in a state denote no execution and are modelled as doing nothing: characters are read only during a read operation and
    if there is no newline in the buffer; the handler is called with a line if there is one in the buffer, and with an error only if there is none or if the session has been destroyed. The handler uses
    the session (`this`), which must exist. -/
def step (fuel : Nat) (s : St σ τ) : Ev → Except Fault (St σ τ × Option Exn)
  | .data t => if s.reading ∧ s.live ∧ cut s.buf = none then .ok ({ s with buf := s.buf ++ t, got := s.got ++ t }, none) else .ok (s, none)
  | .line =>
    if s.reading then
      match cut s.buf with
      | none => .ok (s, none)
      | some (l, rest) =>
        if s.live then
          match feed A fuel l s.w with                                           -- 83
          | .error f => .error f
          | .ok (w, some e) => .ok ({ s with w := w, buf := rest, reading := false, fed := s.fed ++ [l] }, some e)
          | .ok (w, none) =>                                                     -- 84
            match read { s with w := w, buf := rest, reading := false, fed := s.fed ++ [l] } with
            | .error f => .error f
            | .ok s => .ok (s, none)
        else .error (.ub .dangling)
    else .ok (s, none)
  | .fail =>
    if s.reading ∧ (cut s.buf = none ∨ s.live = false) then
      if s.live then .ok ({ s with reading := false }, none)                     -- 88
      else .error (.ub .dangling)
    else .ok (s, none)
  | .destroy => .ok ({ s with live := false }, none)

/-- A sequence of events; an exception leaves the scheduler. -/
def run (fuel : Nat) : List Ev → St σ τ → Except Fault (St σ τ × Option Exn)
  | [], s => .ok (s, none)
  | e :: es, s =>
    match step A fuel s e with
    | .error f => .error f
    | .ok (s, some x) => .ok (s, some x)
    | .ok (s, none) => run fuel es s

end
end Verif.Async
