import Verif.Model.Session

/-!
# Model of `CliFileSession` (`include/cli/clifilesession.h`)

The state of the application is extended by the session's member `exit`. The exception mask of the input stream is empty, no handler reads from it, and no
line is longer than `std::string::max_size()`.
-/

namespace Verif.FileSession
open Verif

variable {σ τ : Type}

/-- `std::istream`: the characters still to come, what happens at their end (end of file, or an error of the device), and the three state bits. -/
structure In where
  data : Str
  broken : Bool
  eof : Bool
  fail : Bool
  bad : Bool
  deriving DecidableEq, Repr

def In.good (i : In) : Bool := !i.eof && !i.fail && !i.bad

/-- A stream in good state that gives the characters and then the end of file. -/
def In.of (s : Str) : In := ⟨s, false, false, false, false⟩

/-- The characters before the first newline and those after it. -/
def cut : Str → Option (Str × Str)
  | [] => none
  | c :: cs => if c = b%'\n' then some ([], cs) else (cut cs).map (fun p => (c :: p.1, p.2))

/-- `std::getline(in, line)` on an empty string ([string.io]): if the stream is not good, `failbit`; else the characters up to the newline, which is removed. At the end of
    file `eofbit`, with `failbit` if there was no character; if the device fails, `badbit`. -/
def getline (i : In) : In × Str :=
  if i.good then
    match cut i.data with
    | some (line, rest) => ({ i with data := rest }, line)
    | none =>
      if i.broken then ({ i with data := [], bad := true, fail := i.data.isEmpty }, i.data)
      else ({ i with data := [], eof := true, fail := i.data.isEmpty }, i.data)
  else ({ i with fail := true }, [])

/-- The same effect, in the presence of the member `exit`. -/
def lift (b : Bool) (e : Effect σ) : Effect (σ × Bool) := ⟨(e.app, b), e.acts, e.exn⟩

/-- The application as a `CliFileSession` runs it. The constructor (52-57) sets the session's exit action; `other` is the one the user has put in its place since then, if any. -/
def fileApp (A : App σ τ) (other : Option (σ → Effect σ)) : App (σ × Bool) τ :=
  { plat := A.plat
    handler := fun fn s vals => lift s.2 (A.handler fn s.1 vals)
    onException := A.onException.map (fun f s line e => lift s.2 (f s.1 line e))
    onWrong := A.onWrong.map (fun f s line => lift s.2 (f s.1 line))
    enterGlobal := A.enterGlobal.map (fun f s => lift s.2 (f s.1))
    exitGlobal := A.exitGlobal.map (fun f s => lift s.2 (f s.1))
    enterSession := A.enterSession.map (fun f s => lift s.2 (f s.1))
    exitSession := match other with
      | none => some (fun s => ⟨(s.1, true), [], none⟩)
      | some f => some (fun s => lift s.2 (f s.1))
    store := A.store
    storeFails := A.storeFails
    stored := A.stored }

/-- clifilesession.h:45-58, the constructor, on a `Cli` in a given state: history size 1; exceptions for streams that are not good (`outGood`: `_out.good()`). -/
def create (A : App σ τ) (i : In) (outGood : Bool) (w : World σ τ) (io : Io) : Except Exn (World (σ × Bool) τ) :=
  if !i.good then .error (.std bs!"istream invalid")
  else if !outGood then .error (.std bs!"ostream invalid")
  else
    let w := newSession A 1 w io
    .ok { app := (w.app, false), tree := w.tree, dis := w.dis, used := w.used, gen := w.gen, storage := w.storage, io := w.io, casts := w.casts, hist := w.hist,
          current := w.current, exit := w.exit, log := w.log }

/-- How `Start` ends. -/
structure End (σ τ : Type) where
  w : World (σ × Bool) τ
  i : In
  /-- the lines that `Feed` was called with (ghost) -/
  fed : List Str
  /-- the exception that leaves `Start` -/
  exn : Option Exn

/-- `Exit()`, then go on unless it throws. -/
def exitThen (A : App (σ × Bool) τ) (w : World (σ × Bool) τ) (i : In) (fed : List Str) (k : World (σ × Bool) τ → Except Fault (Option (End σ τ))) : Except Fault (Option (End σ τ)) :=
  match exitSession A w with
  | .error f => .error f
  | .ok (w, some e) => .ok (some ⟨w, i, fed, some e⟩)
  | .ok (w, none) => k w

/-- clifilesession.h:63-74, the loop, for at most `n` rounds; `none`: it has not ended by then. -/
def loop (A : App (σ × Bool) τ) (fuel : Nat) : Nat → In → List Str → World (σ × Bool) τ → Except Fault (Option (End σ τ))
  | n, i, fed, w =>
    if w.app.2 then .ok (some ⟨w, i, fed, none⟩)                     -- 63
    else match n with
      | 0 => .ok none
      | n + 1 =>
        match prompt w with                                          -- 65
        | .error f => .error f
        | .ok w =>
          let read (w : World (σ × Bool) τ) :=
            let (i, line) := getline i                               -- 69
            if i.eof then exitThen A w i fed (loop A fuel n i fed)   -- 70-71
            else
              match feed A fuel line w with                          -- 73
              | .error f => .error f
              | .ok (w, some e) => .ok (some ⟨w, i, fed ++ [line], some e⟩)
              | .ok (w, none) => loop A fuel n i (fed ++ [line]) w
          if i.good then read w else exitThen A w i fed read         -- 67-68

/-- clifilesession.h:59-75 `Start`. -/
def start (A : App (σ × Bool) τ) (fuel n : Nat) (i : In) (w : World (σ × Bool) τ) : Except Fault (Option (End σ τ)) :=
  match enterSession A w with
  | (w, some e) => .ok (some ⟨w, i, [], some e⟩)
  | (w, none) => loop A fuel n i [] w

end Verif.FileSession
