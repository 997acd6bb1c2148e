import Verif.Basic

/-!
# Model of moving a `Cli`

`Cli` cannot be copied, but it can be moved (cli.h:123-125): constructed or assigned from another one, as when it is returned from a function or kept in a `std::vector`. Sessions, and the servers that make them, keep a reference to the
`Cli` (cli.h:382) and a pointer to its menu (cli.h:384). Here the objects of a program have identities: `Cli` objects, storages, menus (each root menu with everything below it) and sessions. Commands are reduced to "found in the
current menu" and "not found"; `Model/Session` has the rest. Storages append what they are given.
-/

namespace Verif.Move

/-- The four `std::function` members of a `Cli`, by name; `none`: empty (cli.h:241-244). -/
structure Handlers where
  enter : Option Nat
  exit : Option Nat
  exn : Option Nat
  wrong : Option Nat
  deriving DecidableEq, Repr

/-- A `Cli` object (cli.h:238-245): the storage and the menu its `unique_ptr`s own, `none` for a null pointer. -/
structure Obj where
  storage : Option Nat
  menu : Option Nat
  handlers : Handlers
  deriving DecidableEq, Repr

/-- A session (cli.h:380-390): the `Cli` it refers to, the menu it is in (null if the `Cli` had none), the lines of its history that came from the storage, and those that were typed. -/
structure Sess where
  cli : Nat
  current : Option Nat
  loaded : List Str
  typed : List Str
  deriving DecidableEq, Repr

/-- The objects that exist. -/
structure Heap where
  clis : Nat → Option Obj
  storages : Nat → Option (List Str)
  menus : Nat → Bool
  sessions : Nat → Option Sess

/-- Nothing exists yet. -/
def Heap.empty : Heap := ⟨fun _ => none, fun _ => none, fun _ => false, fun _ => none⟩

/-- What happens outside the library. -/
inductive Event where
  /-- one of the functions of the `Cli` is called for a session -/
  | called (f session : Nat)
  /-- a command of a menu is executed -/
  | ran (menu session : Nat) (line : Str)
  /-- the library's own message for a wrong command -/
  | wrong (session : Nat) (line : Str)
  /-- a storage is asked for its commands -/
  | loaded (storage session : Nat) (lines : List Str)
  /-- a storage is given the commands of a session -/
  | stored (storage session : Nat) (lines : List Str)
  deriving DecidableEq, Repr

/-- One thing a program does. -/
inductive Op where
  /-- `Cli c(std::move(menu), std::move(storage))`, with handlers set; the menu and the storage are new -/
  | make (c storage menu : Nat) (h : Handlers)
  /-- `Cli b(std::move(a))`; `left` is what the functions of `a` are afterwards (valid but unspecified) -/
  | construct (a b : Nat) (left : Handlers)
  /-- `b = std::move(a)` -/
  | assign (a b : Nat) (left : Handlers)
  /-- the end of the life of a `Cli` -/
  | destroy (c : Nat)
  /-- a session is constructed on a `Cli`, and entered -/
  | enter (k c : Nat)
  /-- a line that is a command of the menu the session is in -/
  | run (k : Nat) (line : Str)
  /-- a line that is no command -/
  | mistake (k : Nat) (line : Str)
  /-- `exit` -/
  | exit (k : Nat)
  /-- the end of the life of a session -/
  | close (k : Nat)
  deriving DecidableEq, Repr

/-- An update of a function. -/
def set {α : Type} (f : Nat → α) (i : Nat) (x : α) : Nat → α := fun j => if j = i then x else f j

/-- Undefined behaviour: use of a null pointer, or of an object that exists no more. -/
inductive Why where
  | null
  | dangling
  deriving DecidableEq, Repr

/-- The result of an operation: impossible (the program cannot do this, e.g. use a name twice), undefined behaviour, or what happened and what there is afterwards. -/
inductive Res where
  | impossible
  | ub (why : Why)
  | ok (events : List Event) (h : Heap)

/-- The destructor of a `unique_ptr<HistoryStorage>` and of a `unique_ptr<Menu>`. -/
def Heap.drop (h : Heap) (o : Obj) : Heap :=
  { h with
    storages := match o.storage with | some s => set h.storages s none | none => h.storages
    menus := match o.menu with | some m => set h.menus m false | none => h.menus }

/-- `if (f) f(out)` (cli.h:200-210). -/
def call (f : Option Nat) (k : Nat) : List Event := match f with | some f => [.called f k] | none => []

/-- One operation. -/
def step (h : Heap) : Op → Res
  -- cli.h:869-875
  | .make c s m hs =>
    if (h.clis c).isSome || (h.storages s).isSome || h.menus m then .impossible
    else .ok [] { h with clis := set h.clis c (some ⟨some s, some m, hs⟩), storages := set h.storages s (some []), menus := set h.menus m true }
  -- cli.h:124, memberwise
  | .construct a b left =>
    match h.clis a with
    | none => .impossible
    | some o =>
      if (h.clis b).isSome then .impossible
      else .ok [] { h with clis := set (set h.clis a (some ⟨none, none, left⟩)) b (some o) }
  -- cli.h:125, memberwise; a `unique_ptr` that is assigned to itself keeps its object
  | .assign a b left =>
    match h.clis a, h.clis b with
    | some o, some p =>
      if a = b then .ok [] { h with clis := set h.clis a (some { o with handlers := left }) }
      else
        let h := h.drop p
        .ok [] { h with clis := set (set h.clis a (some ⟨none, none, left⟩)) b (some o) }
    | _, _ => .impossible
  -- cli.h:119
  | .destroy c =>
    match h.clis c with
    | none => .impossible
    | some o =>
      let h := h.drop o
      .ok [] { h with clis := set h.clis c none }
  -- cli.h:879-887 (`cli.RootMenu()`, `cli.GetCommands()`), cli.h:330-336
  | .enter k c =>
    if (h.sessions k).isSome then .impossible else
    match h.clis c with
    | none => .ub .dangling
    | some o =>
      match o.storage with
      | none => .ub .null
      | some s =>
        match h.storages s with
        | none => .ub .dangling
        | some lines => .ok (.loaded s k lines :: call o.handlers.enter k) { h with sessions := set h.sessions k (some ⟨c, o.menu, lines, []⟩) }
  -- cli.h:912-926: `current->ScanCmds`
  | .run k line =>
    match h.sessions k with
    | none => .impossible
    | some e =>
      match e.current with
      | none => .ub .null
      | some m =>
        if h.menus m then .ok [.ran m k line] { h with sessions := set h.sessions k (some { e with typed := e.typed ++ [line] }) }
        else .ub .dangling
  -- cli.h:912-929: `current->ScanCmds`, then `cli.WrongCommandHandler` (cli.h:220-226)
  | .mistake k line =>
    match h.sessions k with
    | none => .impossible
    | some e =>
      match e.current with
      | none => .ub .null
      | some m =>
        if h.menus m then
          match h.clis e.cli with
          | none => .ub .dangling
          | some o =>
            .ok (match o.handlers.wrong with | some f => [.called f k] | none => [.wrong k line])
              { h with sessions := set h.sessions k (some { e with typed := e.typed ++ [line] }) }
        else .ub .dangling
  -- cli.h:338-347: `cli.ExitAction`, `cli.StoreCommands` (cli.h:228-231); the menu is not needed, `exit` is a command of the session itself
  | .exit k =>
    match h.sessions k with
    | none => .impossible
    | some e =>
      match h.clis e.cli with
      | none => .ub .dangling
      | some o =>
        match o.storage with
        | none => .ub .null
        | some s =>
          match h.storages s with
          | none => .ub .dangling
          | some lines =>
            let typed := e.typed ++ [bs!"exit"]
            .ok (call o.handlers.exit k ++ [.stored s k typed])
              { h with storages := set h.storages s (some (lines ++ typed)), sessions := set h.sessions k (some { e with typed := typed }) }
  -- cli.h:976-979: only `coutPtr` is used
  | .close k =>
    match h.sessions k with
    | none => .impossible
    | some _ => .ok [] { h with sessions := set h.sessions k none }

/-- A program: the operations one after the other, what happened before an operation that is impossible or undefined is forgotten. -/
def exec (h : Heap) : List Op → Res
  | [] => .ok [] h
  | op :: ops =>
    match step h op with
    | .ok ev h =>
      match exec h ops with
      | .ok ev' h => .ok (ev ++ ev') h
      | r => r
    | r => r

end Verif.Move
