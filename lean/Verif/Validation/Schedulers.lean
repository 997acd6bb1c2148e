import Verif.Props.Loop
import Verif.Props.AsioScheduler

/-!
# The tests of `test/scheduler_test_templates.h`, run on the models of the two schedulers

`SchedulingTest`: one thread posts a function and calls `ExecOne`, which calls it. `SameThreadTest`: thread 1 posts, thread 0 executes. `ExceptionTest`: what the function throws leaves `ExecOne`.
-/

namespace Verif.Validation
open Verif Verif.Props

section
open Verif.Loop

example : ∃ s : St Nat, steps (fun _ => true) (St.init 1) (postsOne 0 7 ++ takes 0 ++ [(0, .go), (0, .ret)]) = some s ∧
    s.log = [.posted 7, .began 0 7, .result 0 true] ∧ s.threads = [[]] := ⟨_, rfl, rfl, rfl⟩

example : ∃ s : St Nat, steps (fun _ => true) (St.init 2) (postsOne 1 7 ++ takes 0 ++ [(0, .go), (0, .ret)]) = some s ∧
    s.log = [.posted 7, .began 0 7, .result 0 true] ∧ s.threads = [[], []] := ⟨_, rfl, rfl, rfl⟩

example : ∃ s : St Nat, steps (fun _ => true) (St.init 1) (postsOne 0 7 ++ takes 0 ++ [(0, .go), (0, .throw)]) = some s ∧
    s.log = [.posted 7, .began 0 7] ∧ s.threads = [[]] := ⟨_, rfl, rfl, rfl⟩

end

section
open Verif.AsioScheduler

/-- The four adaptors. -/
example (resets : Bool) : ∃ s : St Nat, steps (fun _ => true) (.init true resets 1) (asioPost 0 7 ++ [.call 0 (.exec .one), .go 0, .go 0, .go 0, .ret 0]) = some s ∧
    s.log = [.queued 7, .began 0 7, .returned 0 .one] ∧ s.threads = [[]] := ⟨_, rfl, rfl, rfl⟩

example (resets : Bool) : ∃ s : St Nat, steps (fun _ => true) (.init true resets 2) (asioPost 1 7 ++ [.call 0 (.exec .one), .go 0, .go 0, .go 0, .ret 0]) = some s ∧
    s.log = [.queued 7, .began 0 7, .returned 0 .one] ∧ s.threads = [[], []] := ⟨_, rfl, rfl, rfl⟩

example (resets : Bool) : ∃ s : St Nat, steps (fun _ => true) (.init true resets 1) (asioPost 0 7 ++ [.call 0 (.exec .one), .go 0, .go 0, .go 0, .throw 0]) = some s ∧
    s.log = [.queued 7, .began 0 7, .threw 0 .one] ∧ s.threads = [[]] := ⟨_, rfl, rfl, rfl⟩

end

end Verif.Validation
