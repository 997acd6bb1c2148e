import Verif.Model.Hooks
import Verif.Spec.Reentrant
import Verif.Spec.Walk

/-!
# Specification for actions and error handlers that use the session
-/

namespace Verif.Hooks
open Spec
open Reentrant (Method Prog RApp)

variable {σ τ : Type}

/-- A function that does not use the session. -/
def plain (f : σ → Effect σ) : Prog σ := .get fun s => .ofEffect (f s)

/-- The user's code of `Verif.Model.Reentrant`, in which only the functions of commands use the session. -/
def ofR (R : RApp σ τ) : HApp σ τ :=
  { rest := R.rest
    prog := R.prog
    onException := R.rest.onException.map fun f line e => plain fun s => f s line e
    onWrong := R.rest.onWrong.map fun f line => plain fun s => f s line
    enterGlobal := R.rest.enterGlobal.map plain
    exitGlobal := R.rest.exitGlobal.map plain
    enterSession := R.rest.enterSession.map plain
    exitSession := R.rest.exitSession.map plain }

/-- The program has that property, for each function of the user that is not a command. -/
structure HApp.Hooks (H : HApp σ τ) (C : Prog σ → Prop) : Prop where
  exception : ∀ f, H.onException = some f → ∀ line e, C (f line e)
  wrong : ∀ f, H.onWrong = some f → ∀ line, C (f line)
  enterGlobal : ∀ q, H.enterGlobal = some q → C q
  exitGlobal : ∀ q, H.exitGlobal = some q → C q
  enterSession : ∀ q, H.enterSession = some q → C q
  exitSession : ∀ q, H.exitSession = some q → C q

/-- The program never throws, whatever the methods that it calls throw. -/
def Quiet : Prog σ → Prop
  | .ret x => x = none
  | .get k => ∀ s, Quiet (k s)
  | .set _ k => Quiet k
  | .act _ k => Quiet k
  | .touch k => Quiet k
  | .call _ k => ∀ x, Quiet (k x)

/-- The program throws no `bad_cast`, unless a method that it calls has thrown one. -/
def NoCast : Prog σ → Prop
  | .ret x => ∀ what, x ≠ some (.badCast what)
  | .get k => ∀ s, NoCast (k s)
  | .set _ k => NoCast k
  | .act _ k => NoCast k
  | .touch k => NoCast k
  | .call _ k => ∀ x, (∀ what, x ≠ some (.badCast what)) → NoCast (k x)

/-- These lines typed one after the other. -/
def typed (H : HApp σ τ) (fuel : Nat) : List Str → World σ τ → Except Fault (World σ τ)
  | [], w => .ok w
  | l :: ls, w =>
    match feed H fuel l w with
    | .error f => .error f
    | .ok (w, _) => typed H fuel ls w

/-- What becomes of an exception thrown while the line is executed: the exception handler is called with it; without one its message is written. What is not a `std::exception` is not given to the handler. -/
def caught (H : HApp σ τ) (I : Inner σ τ) (line : Str) : Option Exn → World σ τ → Ret σ τ
  | none, w => .ok (w, none)
  | some .other, w => .ok ((w.note (.unknown line)).put (bs!"Cli. Unknown exception caught handling command line \"" ++ line ++ bs!"\"\n"), none)
  | some e, w =>
    match H.onException with
    | some f => hook I (f line e) (w.note (.reported line e))
    | none => .ok ((w.note (.reported line e)).put (e.what ++ bs!"\n"), none)

/-- The line designates no menu, and no command accepts it. -/
structure Nothing (p : Platform) (dis : Id → Bool) (path : Path) (toks : List Str) : Prop where
  menu : ∀ q, ¬ DesignatesMenu dis path toks q
  cmd : ∀ c args vals, DesignatesCmd dis path toks c args → ¬ Accepts p c args vals

/-- Nobody removes a menu (the menus belong to `K`, whose objects are never removed) or goes to another menu than those of `P`; nobody throws `bad_cast`; and a command that has removed something or
    called a method that executes functions of the user does not use its captures any more, unless it belongs to `K`. -/
structure Careful (K P : Id → Prop) (H : HApp σ τ) : Prop where
  uses : ∀ fn args, (H.prog fn args).Uses (KeepsMenus K) P
  mild : ∀ (c : Cmd) args, (H.prog c.fn args).Mild K c.id true
  hooks : H.Hooks fun q => q.Uses (KeepsMenus K) P ∧ NoCast q
  store : ∀ st cmds what, H.rest.storeFails st cmds ≠ some (.badCast what)

end Verif.Hooks
