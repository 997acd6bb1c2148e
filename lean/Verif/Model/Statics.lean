import Verif.Basic

/-!
# Model of the lifetime of the stream of `Cli::cout()` (`include/cli/cli.h`)

The stream is shared by a static variable of the function `CoutPtr` (cli.h:192-196), which is initialised the first time the function is called, and by every session (`coutPtr`, cli.h:383, 881). Objects with static storage duration are
destroyed when the program ends, in the reverse order in which their construction was completed ([basic.start.term]); this static variable is among them. What remains is the order of events, in one thread: objects
of the program with static storage duration (designated by numbers) that are completed, sessions that are created and destroyed, uses of `Cli::cout()`.
-/

namespace Verif.Statics

/-- An object with static storage duration. -/
inductive Static where
  /-- the variable `s` (cli.h:194) -/
  | cout
  /-- an object of the program -/
  | other (h : Nat)
  deriving DecidableEq, Repr

structure St where
  /-- those that have been constructed and not been destroyed, the latest first -/
  statics : List Static
  /-- `main` has returned, or `exit` has been called -/
  ended : Bool
  /-- the variable `s` has been initialised -/
  made : Bool
  /-- how many `shared_ptr`s share the stream -/
  owners : Nat
  /-- the sessions that exist (each has a `coutPtr`) -/
  sessions : List Nat
  deriving DecidableEq, Repr

/-- What can happen. -/
inductive Op where
  /-- the construction of an object of the program with static storage duration is completed -/
  | construct (h : Nat)
  /-- a session is created -/
  | create (i : Nat)
  /-- a session is destroyed -/
  | destroy (i : Nat)
  /-- something is written to `Cli::cout()` -/
  | write
  /-- the program ends -/
  | exit
  /-- the destruction of the next object with static storage duration is completed -/
  | next
  deriving DecidableEq, Repr

def init : St := ⟨[], false, false, 0, []⟩

/-- The stream exists. -/
def St.exists (s : St) : Bool := s.owners != 0

/-- cli.h:192-196: the first call initialises the variable. If it has been destroyed, the behaviour of a call is undefined. -/
def coutPtr (s : St) : Except UB St :=
  if s.made then (if .cout ∈ s.statics then .ok s else .error .dangling)
  else .ok { s with made := true, statics := .cout :: s.statics, owners := 1 }

/-- One event; `none` if it is not possible in the state. -/
def step (s : St) : Op → Except UB (Option St)
  | .construct h => if s.ended ∨ .other h ∈ s.statics then .ok none else .ok (some { s with statics := .other h :: s.statics })
  | .create i =>
    if i ∈ s.sessions then .ok none
    else match coutPtr s with
      | .error u => .error u
      -- cli.h:881 `coutPtr(Cli::CoutPtr())`, 889 `Register`
      | .ok s => .ok (some { s with owners := s.owners + 1, sessions := i :: s.sessions })
  | .destroy i =>
    if i ∈ s.sessions then
      -- cli.h:978 `coutPtr->UnRegister(out)`, then `coutPtr` is destroyed
      if s.exists then .ok (some { s with owners := s.owners - 1, sessions := s.sessions.erase i }) else .error .dangling
    else .ok none
  | .write =>
    -- cli.h:184-187 `return *CoutPtr()`: the temporary pointer is destroyed before the stream is used
    match coutPtr s with
    | .error u => .error u
    | .ok s => if s.exists then .ok (some s) else .error .dangling
  | .exit => if s.ended then .ok none else .ok (some { s with ended := true })
  | .next =>
    if s.ended then
      match s.statics with
      | [] => .ok none
      | .cout :: rest => .ok (some { s with statics := rest, owners := s.owners - 1 })
      | .other _ :: rest => .ok (some { s with statics := rest })
    else .ok none

def run : List Op → St → Except UB (Option St)
  | [], s => .ok (some s)
  | o :: os, s =>
    match step s o with
    | .error u => .error u
    | .ok none => .ok none
    | .ok (some s) => run os s

end Verif.Statics
