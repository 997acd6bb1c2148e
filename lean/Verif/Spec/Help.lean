import Verif.Spec.Walk

/-!
# Specification of the help text

The help text is a heading followed by one item per available command or menu.
-/

namespace Verif.Spec

/-- What is shown of a command or menu: name, parameters, description. -/
structure HelpItem where
  name : Str
  params : List Str
  desc : Str
  deriving DecidableEq, Repr

/-- ` - name p1 p2 …`, and on the next line a tabulator and the description. -/
def HelpItem.text (i : HelpItem) : Str :=
  bs!" - " ++ i.name ++ i.params.flatMap (fun p => bs!" " ++ p) ++ bs!"\n\t" ++ i.desc ++ bs!"\n"

/-- The parameters shown for a command: the descriptions given by the application in angle brackets or, if there are none, the types. -/
def cmdParams (c : Cmd) : List Str :=
  match c.parDesc, c.kind with
  | [], .variadic ps => ps.map (·.tname)
  | [], .freeform => [bs!"<list of strings>"]
  | ds, _ => ds.map (fun d => bs!"<" ++ d ++ bs!">")

def cmdItem (c : Cmd) : HelpItem := ⟨c.name, cmdParams c, c.desc⟩
def menuItem (m : MenuInfo) : HelpItem := ⟨m.name, [], m.desc⟩

def entryItem : Entry → HelpItem
  | .cmd c => cmdItem c
  | .menu m _ => menuItem m

def entryId : Entry → Id
  | .cmd c => c.id
  | .menu m _ => m.id

/-- The commands that are available in every menu. -/
def globalItems : List HelpItem :=
  [⟨bs!"help", [], bs!"This help message"⟩, ⟨bs!"exit", [], bs!"Quit the session"⟩, ⟨bs!"history", [], bs!"Show the history"⟩,
   ⟨bs!"!", [bs!"<history entry index>"], bs!"Exec a command by index in the history"⟩]

/-- What is available in a menu that is enabled: its enabled entries, in order, and its parent menu if that is enabled. -/
def menuItems (dis : Id → Bool) : Path → List HelpItem
  | [] => []
  | (_, kids) :: anc =>
    (((entries kids).filter (fun e => !dis (entryId e))).map entryItem) ++
    ((anc.head?.toList.filter (fun p => !dis p.1.id)).map (fun p => menuItem p.1))

/-- The help text in a menu that is enabled. -/
def helpFor (dis : Id → Bool) (path : Path) : Str :=
  bs!"Commands available:\n" ++ (globalItems ++ menuItems dis path).flatMap HelpItem.text

end Verif.Spec
