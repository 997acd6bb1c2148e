import Verif.Basic

/-!
# Model of the history storages

`include/cli/volatilehistorystorage.h` and `include/cli/filehistorystorage.h`. The file is modelled by its bytes
(`none`: it does not exist); files that cannot be opened or written are in `Model/StorageIO`; the newline translation of Windows text mode is
left out.
-/

namespace Verif.Storage

/-- `commands.insert(end, …)` and `commands.erase(begin, begin + (size - maxSize))` if there are more than `maxSize`
    (volatilehistorystorage.h:46-51, filehistorystorage.h:52-57). -/
def appendBounded (maxSize : Nat) (commands cmds : List Str) : List Str :=
  let c := commands ++ cmds
  if c.length > maxSize then c.drop (c.length - maxSize) else c

/-- volatilehistorystorage.h:62-63. -/
structure Volatile where
  maxSize : Nat
  commands : List Str
  deriving DecidableEq, Repr

/-- volatilehistorystorage.h:42. -/
def Volatile.init (size : Nat) : Volatile := ⟨size, []⟩
/-- volatilehistorystorage.h:43-52 `Store`. -/
def Volatile.store (s : Volatile) (cmds : List Str) : Volatile :=
  { s with commands := appendBounded s.maxSize s.commands cmds }
/-- volatilehistorystorage.h:53-56 `Commands`. -/
def Volatile.Commands (s : Volatile) : List Str := s.commands
/-- volatilehistorystorage.h:57-60 `Clear`. -/
def Volatile.clear (s : Volatile) : Volatile := { s with commands := [] }

/-- `while (std::getline(in, line)) commands.push_back(line);` (filehistorystorage.h:68-70): `cur` is the line read so far.
    The last line counts even without newline, unless it is empty. -/
def getlines (cur : Str) : Str → List Str
  | [] => if cur = [] then [] else [cur]
  | c :: cs => if c = b%'\n' then cur :: getlines [] cs else getlines (cur ++ [c]) cs

/-- filehistorystorage.h:80-81 and the file itself. -/
structure FileStore where
  maxSize : Nat
  file : Option Str
  deriving DecidableEq, Repr

/-- filehistorystorage.h:62-73 `Commands`. -/
def FileStore.Commands (s : FileStore) : List Str :=
  match s.file with
  | none => []
  | some bytes => getlines [] bytes

/-- What `Store` writes (filehistorystorage.h:51-60): the bytes of the new file. -/
def FileStore.newContents (s : FileStore) (cmds : List Str) : Str :=
  (appendBounded s.maxSize s.Commands cmds).flatMap (fun line => line ++ [b%'\n'])

/-- filehistorystorage.h:48-61 `Store`. -/
def FileStore.store (s : FileStore) (cmds : List Str) : FileStore :=
  { s with file := some (s.newContents cmds) }

/-- filehistorystorage.h:74-77 `Clear`. -/
def FileStore.clear (s : FileStore) : FileStore := { s with file := some [] }

/-- The states the file goes through during `Store`: as it was; truncated by opening it (line 58); then the first `n` bytes written, for
    growing `n` (the stream is free to choose how many bytes it writes at a time). A crash leaves the file in one of them. -/
def FileStore.storeStates (s : FileStore) (cmds : List Str) : List (Option Str) :=
  s.file :: (List.range ((s.newContents cmds).length + 1)).map (fun n => some ((s.newContents cmds).take n))

end Verif.Storage
