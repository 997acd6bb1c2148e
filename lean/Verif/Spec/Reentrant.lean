import Verif.Model.Reentrant
import Verif.Proofs.Tree

/-!
# Specification for handlers that use the session they are called from
-/

namespace Verif.Reentrant
open Spec

variable {σ τ : Type}

/-! ### Programs -/

/-- The program that does just that. -/
def Prog.ofEffect (e : Effect σ) : Prog σ := .set e.app (e.acts.foldr .act (.ret e.exn))

/-- An application whose functions do not use the session. -/
def ofApp (A : App σ τ) : RApp σ τ := { rest := A, prog := fun fn vals => .get fun s => .ofEffect (A.handler fn s vals) }

/-- The program that feeds these lines to the session. -/
def Prog.macro (lines : List Str) : Prog σ := lines.foldr (fun l q => .call (.feed l) fun _ => q) (.ret none)

/-- These lines typed one after the other. -/
def typed (R : RApp σ τ) (fuel : Nat) : List Str → World σ τ → Except Fault (World σ τ)
  | [], w => .ok w
  | l :: ls, w =>
    match feed R fuel l w with
    | .error f => .error f
    | .ok (w, _) => typed R fuel ls w

/-! ### Which programs are safe -/

/-- All actions of the program satisfy `OK`, and all menus it goes to `P`. -/
def Prog.Uses (OK : Act → Prop) (P : Id → Prop) : Prog σ → Prop
  | .ret _ => True
  | .get k => ∀ s, (k s).Uses OK P
  | .set _ k => k.Uses OK P
  | .act a k => OK a ∧ k.Uses OK P
  | .touch k => k.Uses OK P
  | .call m k => (∀ i, m = .goto i → P i) ∧ ∀ x, (k x).Uses OK P

/-- Is it the removal of an object? -/
def removes : Act → Bool
  | .remove _ => true
  | _ => false

/-- Does the method execute neither commands nor actions of the user? -/
def Method.inert : Method → Bool
  | .prompt | .help | .history | .goto _ => true
  | _ => false

/-- A program of the command `id`: it throws no `bad_cast` unless a method has thrown it; once it has removed something or called a method that executes user code, it
    uses what it has captured only if the command belongs to `K`. -/
def Prog.Mild (K : Id → Prop) (id : Id) : Bool → Prog σ → Prop
  | _, .ret x => ∀ what, x ≠ some (.badCast what)
  | fresh, .get k => ∀ s, (k s).Mild K id fresh
  | fresh, .set _ k => k.Mild K id fresh
  | fresh, .act a k => k.Mild K id (fresh && !removes a)
  | fresh, .touch k => (fresh = true ∨ K id) ∧ k.Mild K id fresh
  | fresh, .call m k => ∀ x, (∀ what, x ≠ some (.badCast what)) → (k x).Mild K id (fresh && m.inert)

/-- The current menu exists, the menus of `P` exist, and all menus belong to `K`. -/
structure Firm (K P : Id → Prop) (w : World σ τ) : Prop where
  all : ∀ i ∈ w.tree.menuIds, K i
  have_ : ∀ i, P i → i ∈ w.tree.menuIds
  current : w.current ∈ w.tree.menuIds

end Verif.Reentrant
