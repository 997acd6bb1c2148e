import Verif.Model.Storage

/-!
# Model of the file storage where files are opened in text mode (Windows)

`filehistorystorage.h` opens its file without `std::ios_base::binary` (lines 58, 65, 76). On Windows a newline is then written as the two bytes
CR LF, these two are read as a newline, and the byte 26 (Ctrl-Z) ends the file when it is read. `std::getline` and `operator<<` work on
the translated text.
-/

namespace Verif.TextMode
open Storage

/-- What is written to the file (filehistorystorage.h:58-60). -/
def encode : Str → Str
  | [] => []
  | c :: cs => if c = b%'\n' then b%'\r' :: b%'\n' :: encode cs else c :: encode cs

/-- What is read from the file (filehistorystorage.h:65-70). -/
def decode : Str → Str
  | [] => []
  | [c] => if c = 26 then [] else [c]
  | c :: c' :: cs =>
    if c = 26 then []
    else if c = b%'\r' ∧ c' = b%'\n' then b%'\n' :: decode cs
    else c :: decode (c' :: cs)

/-- filehistorystorage.h:80-81 and the bytes of the file. -/
structure TextStore where
  maxSize : Nat
  file : Option Str
  deriving DecidableEq, Repr

/-- filehistorystorage.h:62-73 `Commands`. -/
def TextStore.Commands (s : TextStore) : List Str :=
  match s.file with
  | none => []
  | some bytes => getlines [] (decode bytes)

/-- filehistorystorage.h:48-61 `Store`. -/
def TextStore.store (s : TextStore) (cmds : List Str) : TextStore :=
  { s with file := some (encode ((appendBounded s.maxSize s.Commands cmds).flatMap (fun line => line ++ [b%'\n']))) }

/-- filehistorystorage.h:74-77 `Clear`. -/
def TextStore.clear (s : TextStore) : TextStore := { s with file := some [] }

end Verif.TextMode
