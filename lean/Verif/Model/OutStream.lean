import Verif.Basic

/-!
# Model of `OutStream`, the type of `Cli::cout()` (`include/cli/cli.h`)

`Cli::cout()` has no buffer and its own state is always good (`xsputn` and `overflow` never report an error), so that what is inserted into it
arrives as calls of `xsputn` (texts, formatted values) and `overflow` (`put`, `std::endl`). Streams are designated by numbers. The object is used by one thread at a time; streams outlive the
sessions on them; no session is created on `Cli::cout()` itself.
-/

namespace Verif.OutStream

/-- A `std::ostream` as far as it matters here: what has been written, the state bits (`good`), `width()` and `fill()`. -/
structure Stream where
  text : Str
  good : Bool
  width : Nat
  fill : Byte
  deriving DecidableEq, Repr

/-- cli.h:108 `ostreams`, all the streams, and the live sessions, each with its stream. -/
structure St where
  regs : List Nat
  streams : Nat → Stream
  live : List (Nat × Nat)

/-- What can happen. -/
inductive Op where
  /-- session `s` is created on stream `k` -/
  | create (s k : Nat)
  | destroy (s : Nat)
  /-- a text is inserted into `Cli::cout()` -/
  | write (t : Str)
  /-- `Cli::cout().put(c)`, also for `std::endl` -/
  | putc (c : Byte)
  /-- something is written to a stream by other means (private output) -/
  | own (k : Nat) (t : Str)
  /-- the state of a stream changes by other means -/
  | tune (k : Nat) (good : Bool) (width : Nat)
  deriving DecidableEq, Repr

def St.upd (s : St) (k : Nat) (f : Stream → Stream) : St := { s with streams := fun i => if i = k then f (s.streams i) else s.streams i }

/-- `os->rdbuf()->sputn(s, n)`: past the state of the stream. -/
def sputn (t : Str) (o : Stream) : Stream := { o with text := o.text ++ t }

/-- `*os << c`: formatted output of a character. -/
def insertChar (c : Byte) (o : Stream) : Stream :=
  if o.good then { o with text := o.text ++ List.replicate (o.width - 1) o.fill ++ [c], width := 0 } else o

/-- cli.h:84-89 `xsputn`, 90-95 `overflow`, 97-100 `Register` (called by the constructor of `CliSession`, 889), 101-104 `UnRegister` (by the destructor, 978). -/
def step (s : St) : Op → St
  | .create i k => { s with regs := s.regs ++ [k], live := s.live ++ [(i, k)] }
  | .destroy i =>
    match s.live.find? (fun p => p.1 == i) with
    | none => s
    | some (_, k) => { s with regs := s.regs.filter (fun j => j != k), live := s.live.filter (fun p => p.1 != i) }
  | .write t => s.regs.foldl (fun s k => s.upd k (sputn t)) s
  | .putc c => s.regs.foldl (fun s k => s.upd k (insertChar c)) s
  | .own k t => s.upd k (sputn t)
  | .tune k g w => s.upd k (fun o => { o with good := g, width := w })

def run (s : St) (ops : List Op) : St := ops.foldl step s

end Verif.OutStream
