import Verif.Model.Completion

/-!
# Model of menus with commands of the user's own classes (`include/cli/cli.h`)

`Menu::Insert(std::unique_ptr<Command>&&)` (cli.h:482-488) takes objects of any class derived from `Command`. Of these nothing is known but that they can be asked: `Exec`, `Help` and `GetCompletionRecursive` are arbitrary functions of the
user. A menu can be inserted in the same way, as it is a `Command`; then, unlike in cli.h:490-497, its parent is not set.

Simplified: while a line is being executed nothing is inserted or removed, and user code does not call `Feed`.
-/

namespace Verif.Custom

/-- What `Exec` does: it accepts the line, declines it, or throws. -/
inductive Answer where
  | yes
  | no
  | throws (e : Exn)
  deriving DecidableEq, Repr

/-- cli.h:700-712, `Menu`: name and whether the parent is known. -/
structure Info where
  id : Nat
  name : Str
  /-- inserted as a `Menu`: `parent` is set (cli.h:494) -/
  linked : Bool
  deriving DecidableEq, Repr

/-- The contents of a menu (cli.h:711 `cmds`), in insertion order. -/
inductive Forest where
  | nil
  | cmd (c : Nat) (rest : Forest)
  | menu (m : Info) (kids rest : Forest)
  deriving DecidableEq, Repr

/-- A menu with the menus that contain it, innermost first. -/
abbrev Path := List (Info × Forest)

/-- The virtual functions of the commands, by the identity of the object; `σ` is the state of the program. -/
structure User (σ : Type) where
  /-- cli.h:261 `Exec` -/
  exec : Nat → List Str → σ → σ × Answer
  /-- cli.h:262 `Help`: what it writes -/
  help : Nat → σ → Str
  /-- cli.h:267 `GetCompletionRecursive` -/
  complete : Nat → Str → σ → List Str
  /-- cli.h:277 `IsEnabled`, of a menu -/
  enabled : σ → Nat → Bool
  /-- cli.h:324 `session.Current(menu)` -/
  enter : Nat → σ → σ

section
variable {σ : Type} (U : User σ)

/-- `if (…) return true;` in a loop; an exception leaves it, too. -/
def next (r : σ × Answer) (k : σ → σ × Answer) : σ × Answer :=
  match r.2 with
  | .no => k r.1
  | _ => r

/-- cli.h:513-515 and 672-673. -/
def scanEntries (toks : List Str) (sub : Info → Forest → σ → σ × Answer) : Forest → σ → σ × Answer
  | .nil, s => (s, .no)
  | .cmd c rest, s => next (U.exec c toks s) (scanEntries toks sub rest)
  | .menu m kids rest, s => next (sub m kids s) (scanEntries toks sub rest)

/-- cli.h:654-678 `HandleCommand`; `viaParent`: called by `ExecParent` (504-507). -/
def handle : List Str → Bool → Path → σ → σ × Answer
  | _, _, [], s => (s, .no)
  | [], _, _, s => (s, .no)
  | t :: rest, viaParent, (m, kids) :: anc, s =>
    if U.enabled s m.id = false then (s, .no)
    else if t = m.name ∨ (viaParent = true ∧ t = bs!"..") then
      if rest = [] then (U.enter m.id s, .yes)
      else
        next (scanEntries U rest (fun m' kids' s => handle rest false ((m', kids') :: (m, kids) :: anc) s) kids s)
          (fun s => if m.linked then handle rest true anc s else (s, .no))
    else (s, .no)

/-- cli.h:509-518 `ScanCmds`. -/
def scan (toks : List Str) : Path → σ → σ × Answer
  | [], s => (s, .no)
  | (m, kids) :: anc, s =>
    if U.enabled s m.id = false then (s, .no)
    else
      next (scanEntries U toks (fun m' kids' s => handle U toks false ((m', kids') :: (m, kids) :: anc) s) kids s)
        (fun s => if m.linked then handle U toks true anc s else (s, .no))

/-- cli.h:534-538 `Menu::Help`. -/
def menuHelp (desc : Nat → Str) (s : σ) (m : Info) : Str :=
  if U.enabled s m.id = false then [] else bs!" - " ++ m.name ++ bs!"\n\t" ++ desc m.id ++ bs!"\n"

/-- cli.h:528-529. -/
def helpEntries (desc : Nat → Str) (s : σ) : Forest → Str
  | .nil => []
  | .cmd c rest => U.help c s ++ helpEntries desc s rest
  | .menu m _ rest => menuHelp U desc s m ++ helpEntries desc s rest

/-- cli.h:525-532 `MainHelp`. -/
def mainHelp (desc : Nat → Str) (s : σ) : Path → Str
  | [] => []
  | (m, kids) :: anc =>
    if U.enabled s m.id = false then []
    else helpEntries U desc s kids ++ (if m.linked then match anc with | [] => [] | (p, _) :: _ => menuHelp U desc s p else [])

/-- cli.h:286-303, 616-621. -/
def complEntries (line : Str) (s : σ) (sub : Info → Forest → Except Fault (List Str)) : Forest → Except Fault (List Str)
  | .nil => .ok []
  | .cmd c rest => do
    let r ← complEntries line s sub rest
    .ok (U.complete c line s ++ r)
  | .menu m kids rest => do
    let a ← sub m kids
    let r ← complEntries line s sub rest
    .ok (a ++ r)

/-- cli.h:570-578, 594-629 (see `Completion.complMenu`). -/
def complMenu (p : Platform) (s : σ) : Nat → Bool → Path → Str → Except Fault (List Str)
  | _, _, [], _ => .ok []
  | 0, _, _ :: _, _ => .error .stackOverflow
  | fuel + 1, viaParent, (m, kids) :: anc, line =>
    let helper (pre : Str) : Except Fault (List Str) := do
      let rest ← Completion.trimLeft p (line.drop pre.length)
      let a ← complEntries U rest s (fun m' kids' => complMenu p s fuel false ((m', kids') :: (m, kids) :: anc) rest) kids
      let b ← cond m.linked (complMenu p s fuel true anc rest) (.ok [])
      .ok ((a ++ b).map (fun c => pre ++ bs!" " ++ c))
    if m.name.isPrefixOf line then helper m.name
    else if viaParent && (bs!"..").isPrefixOf line then helper bs!".."
    else .ok (Completion.complName (!U.enabled s m.id) m.name line)

/-- cli.h:544-553 `GetCompletions`. -/
def complCurrent (p : Platform) (fuel : Nat) (line : Str) (s : σ) : Path → Except Fault (List Str)
  | [] => .ok []
  | (m, kids) :: anc => do
    let a ← complEntries U line s (fun m' kids' => complMenu U p s fuel false ((m', kids') :: (m, kids) :: anc) line) kids
    let b ← cond m.linked (complMenu U p s fuel true anc line) (.ok [])
    .ok (a ++ b)

end
end Verif.Custom
