import Verif.Model.Plugins
import Verif.Spec.Exec

/-!
# What the plugin manager should do (C106)
-/

namespace Verif.Plugged
open Spec Plugins

abbrev PWorld := World Plugins.St Storage.Volatile

/-- The menus of the loaded plugins, in the order of loading. -/
def kidsOf (l : List Item) : Forest := l.foldr Item.forest .nil

/-! ### What the record of the calls says -/

/-- What a call of `load` or `unload` in the record has done to the plugins loaded before. -/
def toldBy (ps : List Plug) : Event → List Plug
  | .ran c [.str n] _ _ =>
    if c.fn = Fn.load.code then ps ++ [Plug.arithmetic, Plug.strings].filter (fun p => p.name == n)
    else if c.fn = Fn.unload.code then ps.filter (fun p => p.name != n)
    else ps
  | _ => ps

/-- The plugins loaded according to the record. -/
def told (ps : List Plug) (evs : List Event) : List Plug := evs.foldl toldBy ps

/-- The sums and differences that a call calculates. -/
def results : Event → List Int
  | .ran c [.int x, .int y] _ _ => if c.fn = Fn.add2.code then [x + y] else if c.fn = Fn.sub.code then [x - y] else []
  | .ran c [.int x, .int y, .int z] _ _ => if c.fn = Fn.add3.code then [x + y, x + y + z] else []
  | _ => []

/-- The call has undefined behaviour: a result does not fit an `int`, or `toupper` is called with a negative `char` other than `EOF`. -/
def Breaks (pf : Platform) (e : Event) : Prop :=
  (∃ x ∈ results e, ¬ (-2 ^ 31 ≤ x ∧ x < 2 ^ 31)) ∨ ∃ c a s x, e = .ran c [.str a] s x ∧ c.fn = Fn.upper.code ∧ ∃ b ∈ a, pf.ctypeUB b = true

/-- Whether colours have been switched on or off, according to one call. -/
def chosenBy (o : Option Bool) : Event → Option Bool
  | .ran c _ _ _ => if c.fn = Fn.color.code then some true else if c.fn = Fn.nocolor.code then some false else o
  | _ => o

/-- Whether colours are on, off, or neither has been chosen, according to the record. -/
def chosen (o : Option Bool) (evs : List Event) : Option Bool := evs.foldl chosenBy o

/-- `unload` is called with the name of the plugin in whose menu the session is. -/
def Pulls : Event → Prop
  | .ran c [.str n] s _ => c.fn = Fn.unload.code ∧ s.current ≠ s.tree.root.id ∧ ∃ m k q, s.tree.locate s.current = some ((m, k) :: q) ∧ m.name = n
  | _ => False

/-- Which of `color` and `nocolor` is disabled. -/
def Offers (w : PWorld) (o : Option Bool) : Prop := w.dis 5 = (o == some true) ∧ w.dis 6 = (o == some false)

/-- What is typed or done in the session of the program, one thing after the other; nothing happens to the menus from outside. -/
abbrev Ran (pf : Platform) (b : Bool) (st : Style) (w : PWorld) : Prop := Exec (Plugins.app pf b) (fun _ => False) (fun _ => True) (boot st) w

end Verif.Plugged
