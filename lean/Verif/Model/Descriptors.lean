import Verif.Model.Keyboard

/-!
# Model of the descriptors used by the Linux keyboard (`InputSource`, `include/cli/detail/linuxkeyboard.h:51-100`)

The keyboard of `Model/Keyboard` together with the table of open descriptors of the process. `pipe`, `close`, `write` and `FD_SET` are as documented by POSIX; `write` to a pipe whose read end is closed raises `SIGPIPE`, which ends the process
unless the program ignores it.
-/

namespace Verif.Descriptors
open Keyboard (Kb)

/-- How an execution can go wrong. -/
inductive Bad where
  /-- the value of an `int` is used that has never been set: undefined behaviour -/
  | indeterminate
  /-- `FD_SET` of a descriptor that is not less than `FD_SETSIZE`: undefined behaviour (in practice it writes beyond the set) -/
  | setOverflow
  /-- the process is killed by `SIGPIPE` -/
  | sigpipe
  deriving DecidableEq, Repr

/-- `FD_SETSIZE` on Linux. -/
def setSize : Nat := 1024

/-- State. -/
structure St (α : Type) where
  kb : Kb α
  /-- linuxkeyboard.h:99 `readPipe` and 98 `shutdownPipe`, if they have been set -/
  ends : Option (Nat × Nat)
  /-- the read end of the pipe is open -/
  reading : Bool
  /-- the descriptors that are open in the process -/
  files : List Nat
  /-- those of them that have been opened by the rest of the program (this is no state of the program, but only there to talk about it) -/
  others : List Nat

/-- What can happen. -/
inductive Ev (α : Type) where
  | kb (e : Keyboard.Ev α)
  /-- the rest of the program opens a descriptor and gets this number -/
  | open (n : Nat)
  /-- the rest of the program closes one of its descriptors -/
  | close (n : Nat)

/-- What `pipe` can do (linuxkeyboard.h:58): it fails, or gives two free numbers, the first of which is the lowest. -/
def Pipe (files : List Nat) : Option (Nat × Nat) → Prop
  | none => True
  | some (r, w) => r ∉ files ∧ w ∉ files ∧ r < w ∧ ∀ n, n < r → n ∈ files

section
variable {α : Type}

/-- linuxkeyboard.h:55-63, 107-113: construction, with the result of `pipe`. If it fails the two members are left without a value, and nothing is reported. -/
def create (manual : α → α) (tty : α) (files : List Nat) (p : Option (Nat × Nat)) : St α :=
  ⟨Keyboard.init manual tty, p, p.isSome, (match p with | some (r, w) => r :: w :: files | none => files), files⟩

/-- One event; `none` if it is not possible in the state. `ignored`: the program ignores `SIGPIPE`. -/
def step (ignored : Bool) (p : Platform) (manual : α → α) (s : St α) : Ev α → Except Bad (Option (St α))
  | .kb e =>
    match Keyboard.step p manual s.kb e with
    | none => .ok none
    | some k =>
      match e with
      | .check =>
        -- `WaitKbHit` is entered: `FD_SET(readPipe, &rfds)`, and `readPipe + 1` (70, 72)
        match s.ends with
        | none => .error .indeterminate
        | some (r, _) => if r < setSize then .ok (some { s with kb := k }) else .error .setOverflow
      | .ready | .signal =>
        -- `close(readPipe)` if it is in the set (74-76)
        match s.ends with
        | none => .error .indeterminate
        | some (r, _) => if k.reader = .ended then .ok (some { s with kb := k, reading := false, files := s.files.erase r }) else .ok (some { s with kb := k })
      | .stop =>
        -- 89-95
        if s.kb.stopped then .ok none
        else match s.ends with
          | none => .error .indeterminate
          | some (_, w) => if s.reading ∨ ignored then .ok (some { s with kb := k, files := s.files.erase w }) else .error .sigpipe
      | _ => .ok (some { s with kb := k })
  | .open n => if n ∈ s.files then .ok none else .ok (some { s with files := n :: s.files, others := n :: s.others })
  | .close n => if n ∈ s.others then .ok (some { s with files := s.files.erase n, others := s.others.erase n }) else .ok none

/-- A sequence of events. -/
def run (ignored : Bool) (p : Platform) (manual : α → α) : List (Ev α) → St α → Except Bad (Option (St α))
  | [], s => .ok (some s)
  | e :: es, s =>
    match step ignored p manual s e with
    | .error f => .error f
    | .ok none => .ok none
    | .ok (some s) => run ignored p manual es s

end
end Verif.Descriptors
