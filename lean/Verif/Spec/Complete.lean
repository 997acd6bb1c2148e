import Verif.Spec.Help
import Verif.Spec.Space

/-!
# Specification of completion

What has been typed is a walk through the menus, with any white space (or none) between the names, followed by the beginning `r` of the name
of an entry of the menu reached.
-/

namespace Verif.Spec

/-- White space, up to the next character that is none. -/
def Gap (gap rest : Str) : Prop := (∀ x ∈ gap, blank x = true) ∧ ∀ x ∈ rest.head?, blank x = false

/-- The line consists of the names `ws`, spelling a walk from one menu to another, and the rest `r`. Menus may be disabled. A parent menu is named by `..` only if its own name is not what has been
    typed. -/
inductive Typing : Path → Str → List Str → Path → Str → Prop
  | here (p r) : Typing p r [] p r
  | down {p kids anc m k gap rest ws q r} : .menu m k ∈ entries kids → Gap gap rest → Typing ((m, k) :: (p, kids) :: anc) rest ws q r →
      Typing ((p, kids) :: anc) (m.name ++ gap ++ rest) (m.name :: ws) q r
  | up {m kids p pk anc gap rest ws q r} : Gap gap rest → Typing ((p, pk) :: anc) rest ws q r →
      Typing ((m, kids) :: (p, pk) :: anc) (p.name ++ gap ++ rest) (p.name :: ws) q r
  | dots {m kids p pk anc gap rest ws q r} : Gap gap rest → ¬ p.name <+: bs!".." ++ gap ++ rest → Typing ((p, pk) :: anc) rest ws q r →
      Typing ((m, kids) :: (p, pk) :: anc) (bs!".." ++ gap ++ rest) (bs!".." :: ws) q r

/-- `e` is the name of an enabled entry of the menu, or of its enabled parent, and starts with `r`. The name of a menu must be longer than `r`. -/
inductive Begins (dis : Id → Bool) : Path → Str → Str → Prop
  | cmd {m kids anc c r} : .cmd c ∈ entries kids → dis c.id = false → r <+: c.name → Begins dis ((m, kids) :: anc) r c.name
  | menu {m kids anc m' k r} : .menu m' k ∈ entries kids → dis m'.id = false → r <+: m'.name → r ≠ m'.name → Begins dis ((m, kids) :: anc) r m'.name
  | parent {m kids p pk anc r} : dis p.id = false → r <+: p.name → r ≠ p.name → ¬ bs!".." <+: r → Begins dis ((m, kids) :: (p, pk) :: anc) r p.name

/-- The names, separated by single spaces. -/
def spell (ws : List Str) (e : Str) : Str := ws.flatMap (fun w => w ++ bs!" ") ++ e

/-- What completion should offer in a menu. -/
def Offered (dis : Id → Bool) (path : Path) (line c : Str) : Prop :=
  ∃ ws q r e, Typing path line ws q r ∧ Begins dis q r e ∧ c = spell ws e

/-- Without white space. -/
def strip (s : Str) : Str := s.filter (fun c => !blank c)

/-- Lexicographic order of strings, by unsigned characters. -/
inductive StrBefore : Str → Str → Prop
  | nil (c s) : StrBefore [] (c :: s)
  | lt {a b s t} : a.toNat < b.toNat → StrBefore (a :: s) (b :: t)
  | cons {a s t} : StrBefore s t → StrBefore (a :: s) (a :: t)

/-- No menu without a name directly contains another one without a name. -/
def Separated (nameless : Prop) : Forest → Prop
  | .nil => True
  | .cmd _ rest => Separated nameless rest
  | .menu m kids rest => ¬ (m.name = [] ∧ nameless) ∧ Separated (m.name = []) kids ∧ Separated nameless rest

end Verif.Spec
