import Verif.Model.Session

/-!
# Executions of a session
-/

namespace Verif.Spec

variable {σ τ : Type}

/-- What can happen to a session and the menus, in any order: a line is fed, the prompt is shown, `Enter` or `Exit` is called, the previous or next
    entry of the history is asked for (cli.h:368-376 `PreviousCmd`, `NextCmd`; `PreviousCmd` is given the line shown, which satisfies `Shown`), and handles and
    menus are used outside of any handler, by actions that satisfy `OK`. -/
inductive Exec (A : App σ τ) (OK : Act → Prop) (Shown : Str → Prop) : World σ τ → World σ τ → Prop
  | refl (w) : Exec A OK Shown w w
  | feed {w w1 w2 fuel line x} : Exec A OK Shown w w1 → Verif.feed A fuel line w1 = .ok (w2, x) → Exec A OK Shown w w2
  | act {w w1} (a : Act) : OK a → Exec A OK Shown w w1 → Exec A OK Shown w (w1.act a)
  | prompt {w w1 w2} : Exec A OK Shown w w1 → Verif.prompt w1 = .ok w2 → Exec A OK Shown w w2
  | enter {w w1} : Exec A OK Shown w w1 → Exec A OK Shown w (enterSession A w1).1
  | exit {w w1 w2 x} : Exec A OK Shown w w1 → exitSession A w1 = .ok (w2, x) → Exec A OK Shown w w2
  | up {w w1 line s h} : Exec A OK Shown w w1 → Shown line → History.previous w1.hist line = .ok (s, h) → Exec A OK Shown w { w1 with hist := h }
  | down {w w1 s h} : Exec A OK Shown w w1 → History.next w1.hist = .ok (s, h) → Exec A OK Shown w { w1 with hist := h }

end Verif.Spec
