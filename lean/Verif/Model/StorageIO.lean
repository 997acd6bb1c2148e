import Verif.Model.Storage

/-!
# Model of the file storage when file operations fail, and when several programs use one file (`include/cli/filehistorystorage.h`)
-/

namespace Verif.Storage

/-- What the file system does during one call of `Store`. -/
structure Fate where
  /-- reading: the file cannot be opened (`none`), or reading fails after so many bytes (there is no failure if there are not more) -/
  read : Option Nat
  /-- writing: the file cannot be opened (`none`), or writing fails after so many bytes -/
  write : Option Nat

/-- filehistorystorage.h:62-73 `Commands`: a file that cannot be opened is taken for an empty one (66), and a failure to read for the end of the file (69). -/
def FileStore.CommandsIO (s : FileStore) (read : Option Nat) : List Str :=
  match s.file, read with
  | some bytes, some n => getlines [] (bytes.take n)
  | _, _ => []

/-- filehistorystorage.h:48-61 `Store`. Opening the file for writing truncates it (58); neither the failure to open it nor a failure to write is noticed (58-60). -/
def FileStore.storeIO (s : FileStore) (cmds : List Str) (fate : Fate) : FileStore :=
  let commands := appendBounded s.maxSize (s.CommandsIO fate.read) cmds
  match fate.write with
  | none => s
  | some n => { s with file := some ((commands.flatMap (fun line => line ++ [b%'\n'])).take n) }

/-! ### Several programs -/

/-- A program that calls `Store(cmds)`: it has not started, or has read the file and changed the list (51-57), or has written it (58-60). Each of the two is taken as one step. -/
inductive Phase where
  | idle (cmds : List Str)
  | read (commands : List Str)
  | done
  deriving DecidableEq, Repr

/-- A step of program `i`. -/
def shareStep (maxSize : Nat) (st : Option Str × List Phase) (i : Nat) : Option (Option Str × List Phase) :=
  match st.2[i]? with
  | some (.idle cmds) => some (st.1, st.2.set i (.read (appendBounded maxSize (FileStore.Commands ⟨maxSize, st.1⟩) cmds)))
  | some (.read commands) => some (some (commands.flatMap (fun line => line ++ [b%'\n'])), st.2.set i .done)
  | _ => none

/-- A sequence of such steps. -/
def shareRun (maxSize : Nat) : List Nat → Option Str × List Phase → Option (Option Str × List Phase)
  | [], st => some st
  | i :: is, st => (shareStep maxSize st i).bind (shareRun maxSize is)

end Verif.Storage
