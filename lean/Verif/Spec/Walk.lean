import Verif.Model.Menu

/-!
# Specification of what a command line designates

A line is a walk through the menus followed by a command with its arguments, or just a walk. A menu is given with the chain of the
menus that contain it (`Path`, innermost first); `dis` tells which objects are disabled.
-/

namespace Verif.Spec
open FromString (Value)

/-- An entry of a menu. -/
inductive Entry where
  | cmd (c : Cmd)
  | menu (m : MenuInfo) (kids : Forest)
  deriving DecidableEq, Repr

/-- The entries of a menu, in insertion order. -/
def entries : Forest → List Entry
  | .nil => []
  | .cmd c rest => .cmd c :: entries rest
  | .menu m kids rest => .menu m kids :: entries rest

/-- One step of a walk: downwards to an enabled submenu by its name, or upwards to the parent menu, if enabled, by its name or by `..`. -/
inductive Step (dis : Id → Bool) : Path → Str → Path → Prop
  | down {p kids anc m k} : .menu m k ∈ entries kids → dis m.id = false →
      Step dis ((p, kids) :: anc) m.name ((m, k) :: (p, kids) :: anc)
  | up {m kids p pk anc t} : dis p.id = false → (t = p.name ∨ t = bs!"..") →
      Step dis ((m, kids) :: (p, pk) :: anc) t ((p, pk) :: anc)

/-- A walk: the tokens spell steps from one menu to another. -/
inductive Walk (dis : Id → Bool) : Path → List Str → Path → Prop
  | stay (p) : Walk dis p [] p
  | step {p q r t ts} : Step dis p t q → Walk dis q ts r → Walk dis p (t :: ts) r

/-- The same without regard to what is disabled, with the list of the menus it goes through. -/
inductive WalkVia : Path → List Str → List MenuInfo → Path → Prop
  | stay (p) : WalkVia p [] [] p
  | down {p kids anc m k ts ms r} : .menu m k ∈ entries kids → WalkVia ((m, k) :: (p, kids) :: anc) ts ms r →
      WalkVia ((p, kids) :: anc) (m.name :: ts) (m :: ms) r
  | up {m kids p pk anc t ts ms r} : (t = p.name ∨ t = bs!"..") → WalkVia ((p, pk) :: anc) ts ms r →
      WalkVia ((m, kids) :: (p, pk) :: anc) (t :: ts) (p :: ms) r

/-- The menu contains the command. -/
def Contains : Path → Cmd → Prop
  | [], _ => False
  | (_, kids) :: _, c => .cmd c ∈ entries kids

/-- The menu is enabled. -/
def Enabled (dis : Id → Bool) : Path → Prop
  | [] => False
  | (m, _) :: _ => dis m.id = false

/-- As many arguments as parameters, each converting to the parameter's type. -/
inductive Fits (p : Platform) : List Param → List Str → List Value → Prop
  | nil : Fits p [] [] []
  | cons {q qs t ts v vs} : FromString.fromString p q.ty t = .ok v → Fits p qs ts vs → Fits p (q :: qs) (t :: ts) (v :: vs)

/-- Do these arguments fit the command, and which values does its handler get? A free-form command takes any arguments. -/
def Accepts (p : Platform) (c : Cmd) (args : List Str) (vals : List Value) : Prop :=
  match c.kind with
  | .variadic ps => Fits p ps args vals
  | .freeform => vals = args.map .str

/-- The tokens, read in the menu `path`, designate the enabled command `c` with arguments `args`. -/
def DesignatesCmd (dis : Id → Bool) (path : Path) (toks : List Str) (c : Cmd) (args : List Str) : Prop :=
  Enabled dis path ∧ ∃ ws q, toks = ws ++ c.name :: args ∧ Walk dis path ws q ∧ Contains q c ∧ dis c.id = false

/-- The tokens, read in the menu `path`, designate the menu `q`. -/
def DesignatesMenu (dis : Id → Bool) (path : Path) (toks : List Str) (q : Path) : Prop :=
  Enabled dis path ∧ toks ≠ [] ∧ Walk dis path toks q

/-! ### Order of search

The choices made by a walk: at each menu the number of the entry that is followed, or the number of entries for going up to the parent.
What is searched first has the lexicographically smaller sequence of choices. -/

inductive Target where
  | cmd (c : Cmd) (args : List Str)
  | menu (q : Path)
  deriving DecidableEq, Repr

/-- A step with its choice. -/
inductive StepAt (dis : Id → Bool) : Path → Str → Nat → Path → Prop
  | down {p kids anc m k i} : (entries kids)[i]? = some (.menu m k) → dis m.id = false →
      StepAt dis ((p, kids) :: anc) m.name i ((m, k) :: (p, kids) :: anc)
  | up {m kids p pk anc t} : dis p.id = false → (t = p.name ∨ t = bs!"..") →
      StepAt dis ((m, kids) :: (p, pk) :: anc) t (entries kids).length ((p, pk) :: anc)

/-- The tokens, read in a menu, designate a target by a sequence of choices. -/
inductive Des (dis : Id → Bool) : Path → List Str → List Nat → Target → Prop
  | here {m kids anc i c args} : (entries kids)[i]? = some (.cmd c) → dis c.id = false →
      Des dis ((m, kids) :: anc) (c.name :: args) [i] (.cmd c args)
  | enter {p t i q} : StepAt dis p t i q → Des dis p [t] [i] (.menu q)
  | step {p t i q t' ts cs x} : StepAt dis p t i q → Des dis q (t' :: ts) cs x → Des dis p (t :: t' :: ts) (i :: cs) x

/-- The lexicographic order on sequences of choices. -/
def Lex : List Nat → List Nat → Prop
  | [], [] => False
  | [], _ :: _ => True
  | _ :: _, [] => False
  | a :: as, b :: bs => a < b ∨ (a = b ∧ Lex as bs)

/-- A designation that is not usable: the arguments do not fit the command. -/
def Refused (p : Platform) : Target → Prop
  | .cmd c args => ∀ vals, ¬ Accepts p c args vals
  | .menu _ => False

/-- The first usable designation: it is usable and what is searched before it is not. -/
def Chosen (p : Platform) (dis : Id → Bool) (path : Path) (toks : List Str) (x : Target) : Prop :=
  Enabled dis path ∧ ∃ cs, Des dis path toks cs x ∧ ¬ Refused p x ∧ ∀ cs' x', Des dis path toks cs' x' → Lex cs' cs → Refused p x'

/-- Converting the arguments of the command neither is undefined nor throws an exception of its own (custom types). -/
def CleanArgs (p : Platform) (c : Cmd) (args : List Str) : Prop :=
  ∀ ps, c.kind = .variadic ps → args.length = ps.length → ∀ q a, (q, a) ∈ ps.zip args → ∀ e, FromString.fromString p q.ty a = .error e → e = .bad

/-- … for all commands that the line designates. -/
def CleanLine (p : Platform) (dis : Id → Bool) (path : Path) (toks : List Str) : Prop :=
  ∀ c args, DesignatesCmd dis path toks c args → CleanArgs p c args

/-- The object with that identity and everything in it. -/
def _root_.Verif.Forest.under (id : Id) : Forest → List Id
  | .nil => []
  | .cmd c rest => (if c.id = id then [c.id] else []) ++ under id rest
  | .menu m kids rest => (if m.id = id then m.id :: kids.ids else under id kids) ++ under id rest

end Verif.Spec
