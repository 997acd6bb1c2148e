import Verif.Model.Processor
import Verif.Model.FileSession
import Verif.Model.AsyncSession
import Verif.Model.Sessions

/-!
# Model of a session on a stream with a buffer

In the other models everything written to a session's stream counts as output. Here only what has left the stream's buffer counts, and the worst case is assumed: nothing leaves it but by `flush`. `sent` is the number of characters that
have left. A buffer that is full, a line-buffered terminal, and user code that calls `flush` or `std::endl` send more. (`history` ends with a `flush`, history.h:121, which is not modelled: the prompt follows anyway.)
-/

namespace Verif.Flush
open Terminal (Term Key Symbol)
open Processor (Proc)

/-- A stream: what has been written to it, and how much has left the buffer. -/
structure Out where
  io : Io
  sent : Nat

/-- `std::flush` -/
def Out.flush (o : Out) : Out := ⟨o.io, o.io.out.length⟩

/-- Something is inserted. -/
def Out.write (o : Out) (f : Io → Io) : Out := ⟨f o.io, o.sent⟩

/-- terminal.h:63-80 `SetLine`: flushed in 67, and in 75. -/
def setLine (t : Term) (o : Out) (newLine : Str) : Term × Out :=
  let o := (o.write (fun io => ((io.beforeInput.put (Terminal.rep t.pos Terminal.bs)).put newLine).afterInput)).flush
  let o :=
    if newLine.length < t.line.length then
      (o.write (fun io => (io.put (Terminal.rep (t.line.length - newLine.length) b%' ')).put (Terminal.rep (t.line.length - newLine.length) Terminal.bs))).flush
    else o
  (⟨newLine, newLine.length⟩, o)

/-- terminal.h:84-209 `Keypressed`: does the key flush what it has written? Backspace (108) unless at the beginning of the line, left (120) unless there, right (129) unless at the end, a character (158) other than tab, Delete (179)
    unless at the end, End (190), Home (196). The others write nothing, except return (135). -/
def flushes (t : Term) : Key → Bool
  | .backspace => t.pos != 0
  | .left => t.pos > 0
  | .right => t.pos < t.line.length
  | .ascii c => c != b%'\t'
  | .canc => t.pos != t.line.length
  | .end => true
  | .home => true
  | _ => false

def termKey (t : Term) (o : Out) (k : Key) : Except Fault (Term × Out × Symbol) :=
  match Terminal.keypressed t o.io k with
  | .error f => .error f
  | .ok (t', io, s) => .ok (t', if flushes t k then (Out.mk io o.sent).flush else ⟨io, o.sent⟩, s)

/-- A command processor and how much has left the buffer of its session's stream. -/
structure Buf (σ τ : Type) where
  p : Proc σ τ
  sent : Nat

variable {σ τ : Type} (A : App σ τ)

def Buf.setLine (b : Buf σ τ) (s : Str) : Buf σ τ :=
  let r := Flush.setLine b.p.term ⟨b.p.w.io, b.sent⟩ s
  ⟨{ b.p with term := r.1, w := { b.p.w with io := r.2.io } }, r.2.sent⟩

/-- cli.h:943-951 `Prompt`: flushed in 950, unless it returns in 945. -/
def prompt (w : World σ τ) (sent : Nat) : Except Fault (World σ τ × Nat) :=
  match Verif.prompt w with
  | .error f => .error f
  | .ok w' => .ok (w', if w.exit then sent else w'.io.out.length)

/-- commandprocessor.h:146-148, 155-157 -/
def redraw (b : Buf σ τ) (line : Str) : Except Fault (Buf σ τ) :=
  match prompt b.p.w b.sent with
  | .error f => .error f
  | .ok (w, n) => .ok (Buf.setLine ⟨{ b.p with w := w, term := Terminal.resetCursor b.p.term }, n⟩ line)

/-- commandprocessor.h:123-150 -/
def tab (fuel : Nat) (b : Buf σ τ) : Except Fault (Buf σ τ) := do
  let line := b.p.term.line
  let cs ← Completion.completions A.plat fuel b.p.w line
  match cs with
  | [] => .ok b
  | [c] => .ok (b.setLine (c ++ [b%' ']))
  | cs => do
    let pre ← Completion.commonPrefix cs
    if pre.length > line.length then .ok (b.setLine pre)
    else redraw ⟨{ b.p with w := (b.p.w.put bs!"\n").put (Processor.items cs ++ bs!"\n") }, b.sent⟩ line

/-- commandprocessor.h:91-162 `NewCommand`. `Feed` and `Exit` do not flush; telnetscreen.h:42 does. -/
def newCommand (fuel : Nat) (b : Buf σ τ) : Symbol → Except Fault (Buf σ τ × Option Exn)
  | .nothing => .ok (b, none)
  | .eof => do
    let (w, x) ← exitSession A b.p.w
    .ok (⟨{ b.p with w := w }, b.sent⟩, x)
  | .command s => do
    let (w, x) ← feed A fuel s b.p.w
    match x with
    | some e => .ok (⟨{ b.p with w := w, active := false }, b.sent⟩, some e)
    | none => do
      let (w, n) ← prompt w b.sent
      .ok (⟨{ b.p with w := w, active := true }, n⟩, none)
  | .down => do
    let (s, h) ← History.next b.p.w.hist
    .ok (Buf.setLine ⟨{ b.p with w := { b.p.w with hist := h } }, b.sent⟩ s, none)
  | .up => do
    let (s, h) ← History.previous b.p.w.hist b.p.term.line
    .ok (Buf.setLine ⟨{ b.p with w := { b.p.w with hist := h } }, b.sent⟩ s, none)
  | .tab => do
    let b ← tab A fuel b
    .ok (b, none)
  | .clear => do
    let w := b.p.w.put Processor.clearScreen
    let b ← redraw ⟨{ b.p with w := w }, w.io.out.length⟩ b.p.term.line
    .ok (b, none)

/-- commandprocessor.h:80-84 `Keypressed`. -/
def keypressed (fuel : Nat) (b : Buf σ τ) (k : Key) : Except Fault (Buf σ τ × Option Exn) := do
  let (t, o, s) ← termKey b.p.term ⟨b.p.w.io, b.sent⟩ k
  newCommand A fuel ⟨{ b.p with term := t, w := { b.p.w with io := o.io } }, o.sent⟩ s

/-- A sequence of key presses; an exception ends it. -/
def run (fuel : Nat) : List Key → Buf σ τ → Except Fault (Buf σ τ × Option Exn)
  | [], b => .ok (b, none)
  | k :: ks, b => do
    let (b, x) ← keypressed A fuel b k
    match x with
    | some e => .ok (b, some e)
    | none => run fuel ks b

/-- clifilesession.h:63-74, the loop of a session on a file, for at most `n` rounds: how much had left the buffer, and how much had been written, each time `getline` is called on a good stream. -/
def waits (A : App (σ × Bool) τ) (fuel : Nat) : Nat → FileSession.In → World (σ × Bool) τ → Nat → List (Nat × Nat)
  | n, i, w, sent =>
    if w.app.2 then []
    else match n with
      | 0 => []
      | n + 1 =>
        match prompt w sent with
        | .error _ => []
        | .ok (w, sent) =>
          if i.good then
            (sent, w.io.out.length) ::
              (let (i, line) := FileSession.getline i
               if i.eof then
                 match exitSession A w with
                 | .ok (w, none) => waits A fuel n i w sent
                 | _ => []
               else
                 match feed A fuel line w with
                 | .ok (w, none) => waits A fuel n i w sent
                 | _ => [])
          else []

/-- genericcliasyncsession.h:77-85: the handler is called with a line; `Read` (59-61) shows the prompt. -/
def asyncLine (fuel : Nat) (w : World σ τ) (sent : Nat) (line : Str) : Except Fault (World σ τ × Nat × Option Exn) :=
  match feed A fuel line w with
  | .error f => .error f
  | .ok (w, some e) => .ok (w, sent, some e)
  | .ok (w, none) =>
    match prompt w sent with
    | .error f => .error f
    | .ok (w, n) => .ok (w, n, none)

/-- Several sessions (`Model/Sessions`), and how much has left the buffer of the stream of each. -/
structure Many (σ τ : Type) where
  S : Sessions.State σ τ
  sent : Nat → Nat

/-- One step. The prompt flushes the stream of its session. `Cli::cout()` writes to the streams of the other sessions (cli.h:83-94), but flushes none: `OutStream` does not override `sync`, so that `flush` and `std::endl` do nothing there. -/
def Many.step (A : Nat → App σ τ) (M : Many σ τ) (op : Sessions.Op) : Except Fault (Many σ τ) :=
  match Sessions.step A M.S op with
  | .error f => .error f
  | .ok S => .ok ⟨S, match op with
    | .prompt i => if M.S.live i && !(M.S.own i).exit then fun j => if j = i then (S.own i).out.length else M.sent j else M.sent
    | _ => M.sent⟩

def Many.run (A : Nat → App σ τ) (M : Many σ τ) : List Sessions.Op → Except Fault (Many σ τ)
  | [] => .ok M
  | op :: ops => match M.step A op with | .ok M => M.run A ops | .error f => .error f

end Verif.Flush
