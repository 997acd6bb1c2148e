import Verif.Model.Custom
import Verif.Spec.Walk
import Verif.Spec.Space

/-!
# To whom a line is offered (C112)
-/

namespace Verif.Custom

/-- An entry of a menu. -/
inductive Entry where
  | cmd (c : Nat)
  | menu (m : Info) (kids : Forest)
  deriving DecidableEq, Repr

def entries : Forest → List Entry
  | .nil => []
  | .cmd c rest => .cmd c :: entries rest
  | .menu m kids rest => .menu m kids :: entries rest

/-- What can become of a line: a command is asked with some of its tokens, or a menu is entered. -/
inductive Target where
  | ask (c : Nat) (args : List Str)
  | enter (m : Nat)
  deriving DecidableEq, Repr

/-- The token leads from a menu to another one that is enabled: by its name to one in it, by its name or `..` to the one it is in. The number is that of the entry, or the number of entries for the way up. -/
inductive Step (en : Nat → Bool) : Path → Str → Nat → Path → Prop
  | down {p kids anc m k i} : (entries kids)[i]? = some (.menu m k) → en m.id = true → Step en ((p, kids) :: anc) m.name i ((m, k) :: (p, kids) :: anc)
  | up {m kids p pk anc t} : m.linked = true → en p.id = true → (t = p.name ∨ t = bs!"..") → Step en ((m, kids) :: (p, pk) :: anc) t (entries kids).length ((p, pk) :: anc)

/-- A way from a menu, along tokens, by a sequence of choices, to a target. -/
inductive Way (en : Nat → Bool) : Path → List Str → List Nat → Target → Prop
  | here {m kids anc i c toks} : (entries kids)[i]? = some (.cmd c) → Way en ((m, kids) :: anc) toks [i] (.ask c toks)
  | enter {p t i m k anc} : Step en p t i ((m, k) :: anc) → Way en p [t] [i] (.enter m.id)
  | step {p t i q t' ts cs x} : Step en p t i q → Way en q (t' :: ts) cs x → Way en p (t :: t' :: ts) (i :: cs) x

/-- All the ways, in the order of the choices. -/
structure Listing (en : Nat → Bool) (path : Path) (toks : List Str) (L : List (List Nat × Target)) : Prop where
  complete : ∀ cs x, (cs, x) ∈ L ↔ Way en path toks cs x
  ordered : L.Pairwise (fun a b => Spec.Lex a.1 b.1)

variable {σ : Type}

/-- The targets are offered the line one after the other, until one does not decline. -/
def offer (U : User σ) : List Target → σ → σ × Answer
  | [], s => (s, .no)
  | .ask c args :: ts, s =>
    match U.exec c args s with
    | (s, .no) => offer U ts s
    | r => r
  | .enter m :: _, s => (U.enter m s, .yes)

/-- Commands that decline a line do not enable or disable menus. -/
def Modest (U : User σ) : Prop := ∀ c toks s s', U.exec c toks s = (s', .no) → U.enabled s' = U.enabled s

/-- The line without the blanks at its beginning. -/
def trimmed : Str → Str
  | [] => []
  | c :: cs => if Spec.blank c then trimmed cs else c :: cs

/-- What can be completed. The line begins with the name of the menu (even if the name goes on), or with `..`, and the rest is completed there; or it is the beginning of the name of a menu that is enabled; or a command says so. -/
inductive Offers (U : User σ) (s : σ) : Path → Str → Str → Prop
  | cmd {m kids anc c line x} : .cmd c ∈ entries kids → x ∈ U.complete c line s → Offers U s ((m, kids) :: anc) line x
  | name {p kids anc m k line} : .menu m k ∈ entries kids → ¬ m.name <+: line → U.enabled s m.id = true → line <+: m.name → Offers U s ((p, kids) :: anc) line m.name
  | inside {p kids anc m k r x} : .menu m k ∈ entries kids → Offers U s ((m, k) :: (p, kids) :: anc) (trimmed r) x → Offers U s ((p, kids) :: anc) (m.name ++ r) (m.name ++ bs!" " ++ x)
  | parent {m kids p pk anc line} : m.linked = true → ¬ p.name <+: line → ¬ bs!".." <+: line → U.enabled s p.id = true → line <+: p.name → Offers U s ((m, kids) :: (p, pk) :: anc) line p.name
  | above {m kids p pk anc r x} : m.linked = true → Offers U s ((p, pk) :: anc) (trimmed r) x → Offers U s ((m, kids) :: (p, pk) :: anc) (p.name ++ r) (p.name ++ bs!" " ++ x)
  | dots {m kids p pk anc r x} : m.linked = true → ¬ p.name <+: bs!".." ++ r → Offers U s ((p, pk) :: anc) (trimmed r) x → Offers U s ((m, kids) :: (p, pk) :: anc) (bs!".." ++ r) (bs!".." ++ bs!" " ++ x)

end Verif.Custom
