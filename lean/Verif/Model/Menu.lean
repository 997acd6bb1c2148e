import Verif.Model.FromString

/-!
# Model of commands and menus (`include/cli/cli.h`)

Objects have identities (`Id`, standing for their addresses and the weak pointers of handles). The tree contains what never changes in a
command or menu; the `enabled` flags, which handles change, are kept apart (`dis : Id → Bool`, "is disabled").
User-defined subclasses of `Command` are not modelled.
-/

namespace Verif

abbrev Id := Nat

/-- A parameter of a command: its type and the text `TypeDesc<T>::Name()` (cli.h:54-71). -/
structure Param where
  ty : FromString.ParamTy
  tname : Str
  deriving DecidableEq, Repr

/-- cli.h:759-814 `VariadicFunctionCommand<F, Args...>` or cli.h:817-862 `FreeformCommand<F>`. -/
inductive Kind where
  | variadic (params : List Param)
  | freeform
  deriving DecidableEq, Repr

/-- cli.h:249-281, 809-813, 857-861: a command. `fn` tells which user function it calls. -/
structure Cmd where
  id : Id
  name : Str
  kind : Kind
  fn : Nat
  desc : Str
  parDesc : List Str
  deriving DecidableEq, Repr

/-- cli.h:446-463, 694-696: a menu, without its entries. -/
structure MenuInfo where
  id : Id
  name : Str
  desc : Str
  prompt : Str
  deriving DecidableEq, Repr

/-- cli.h:699-700: the vector `cmds` of a menu, in order: each entry is a command or a menu with its own
    vector. -/
inductive Forest where
  | nil
  | cmd (c : Cmd) (rest : Forest)
  | menu (m : MenuInfo) (kids : Forest) (rest : Forest)
  deriving DecidableEq, Repr

/-- A menu together with the chain of its `parent` pointers (cli.h:694): the menu itself first, the root last. -/
abbrev Path := List (MenuInfo × Forest)

namespace Forest

/-- Identities of all objects. -/
def ids : Forest → List Id
  | nil => []
  | cmd c rest => c.id :: rest.ids
  | menu m kids rest => m.id :: (kids.ids ++ rest.ids)

/-- Identities of the menus. -/
def menuIds : Forest → List Id
  | nil => []
  | cmd _ rest => rest.menuIds
  | menu m kids rest => m.id :: (kids.menuIds ++ rest.menuIds)

/-- Find the menu with that identity and its chain of parents. -/
def locate (id : Id) (anc : Path) : Forest → Option Path
  | nil => none
  | cmd _ rest => rest.locate id anc
  | menu m kids rest =>
    if m.id = id then some ((m, kids) :: anc)
    else match kids.locate id ((m, kids) :: anc) with
      | some p => some p
      | none => rest.locate id anc

/-- `push_back` on the vector (cli.h:486, 495). -/
def append : Forest → Forest → Forest
  | nil, new => new
  | cmd c rest, new => cmd c (rest.append new)
  | menu m kids rest, new => menu m kids (rest.append new)

/-- `Menu::Insert` on the menu with identity `mid` (cli.h:482-497). -/
def insertAt (mid : Id) (new : Forest) : Forest → Forest
  | nil => nil
  | cmd c rest => cmd c (insertAt mid new rest)
  | menu m kids rest =>
    menu m (if m.id = mid then kids.append new else insertAt mid new kids) (insertAt mid new rest)

/-- `CmdHandler::Remove` (cli.h:423-437): the entry with that identity is erased from the vector that contains it (there is at
    most one). -/
def remove (id : Id) : Forest → Forest
  | nil => nil
  | cmd c rest => if c.id = id then rest.remove id else cmd c (rest.remove id)
  | menu m kids rest => if m.id = id then rest.remove id else menu m (kids.remove id) (rest.remove id)

end Forest

/-- cli.h:240: the root menu with everything below. -/
structure Tree where
  root : MenuInfo
  kids : Forest
  deriving DecidableEq, Repr

namespace Tree

def ids (t : Tree) : List Id := t.root.id :: t.kids.ids
def menuIds (t : Tree) : List Id := t.root.id :: t.kids.menuIds

/-- The menu that a `Menu*` points to, with its chain of parents; `none` if that menu no longer exists. -/
def locate (id : Id) (t : Tree) : Option Path :=
  if t.root.id = id then some [(t.root, t.kids)] else t.kids.locate id [(t.root, t.kids)]

def insertAt (mid : Id) (new : Forest) (t : Tree) : Tree :=
  if t.root.id = mid then { t with kids := t.kids.append new } else { t with kids := Forest.insertAt mid new t.kids }

def remove (id : Id) (t : Tree) : Tree := { t with kids := t.kids.remove id }

end Tree

/-! ### Parameters -/

/-- cli.h:705-736 `Select<Args...>::Exec`: converts the tokens from left to right. The number of tokens has been checked by
    the caller. -/
def convert (p : Platform) : List Param → List Str → Except FromString.ConvErr (List FromString.Value)
  | [], [] => .ok []
  | q :: qs, t :: ts => do
    let v ← FromString.fromString p q.ty t
    let vs ← convert p qs ts
    return v :: vs
  | _, _ => .error (.ub .assertion)

/-! ### Help -/

/-- cli.h:738-755 `PrintDesc<Args...>::Dump`. -/
def printDesc (ps : List Str) : Str := ps.flatMap (fun n => b%' ' :: n)

/-- cli.h:798-807 and 846-855. -/
def Cmd.helpText (c : Cmd) : Str :=
  bs!" - " ++ c.name ++
  (if c.parDesc = [] then
    (match c.kind with
      | .variadic ps => printDesc (ps.map Param.tname)
      | .freeform => printDesc [bs!"<list of strings>"])
   else []) ++
  c.parDesc.flatMap (fun s => bs!" <" ++ s ++ bs!">") ++
  bs!"\n\t" ++ c.desc ++ bs!"\n"

/-- cli.h:534-538. -/
def MenuInfo.helpText (m : MenuInfo) : Str := bs!" - " ++ m.name ++ bs!"\n\t" ++ m.desc ++ bs!"\n"

/-- cli.h:528-529: the loop of `MainHelp`, with the tests of lines 536, 800 and 848. -/
def Forest.helpText (dis : Id → Bool) : Forest → Str
  | .nil => []
  | .cmd c rest => (if dis c.id then [] else c.helpText) ++ rest.helpText dis
  | .menu m _ rest => (if dis m.id then [] else m.helpText) ++ rest.helpText dis

/-- cli.h:525-532 `Menu::MainHelp`. -/
def mainHelp (dis : Id → Bool) : Path → Str
  | [] => []
  | (m, kids) :: anc =>
    if dis m.id then []
    else kids.helpText dis ++
      (match anc with
        | [] => []
        | (p, _) :: _ => if dis p.id then [] else p.helpText)

end Verif
