import Verif.Props.FileSession

set_option linter.unusedSimpArgs false

/-!
# Property C56: a stream whose end was met before `Start`
-/

namespace Verif.Props
open Verif.FileSession

section
variable {σ τ : Type}

/-- **C56** (refuted, in general) For every application and every stream whose end has been met before `Start` is called: if `Start` returns normally, nothing was executed and the exit sequence has run twice,
    both times completely. -/
theorem C56_always_twice_refuted (A : App σ τ) (fuel n : Nat) (i : In) (hi : i.eof = true) (w : World (σ × Bool) τ) (h0 : w.app.2 = false) (hl : ends w.log = []) (E : End σ τ)
    (h : start (fileApp A none) fuel n i w = .ok (some E)) (hx : E.exn = none) :
    E.fed = [] ∧ ∃ cmds cmds', ends E.w.log = (.exitSession :: mark A.exitGlobal .exitGlobal ++ [.saved cmds]) ++ (.exitSession :: mark A.exitGlobal .exitGlobal ++ [.saved cmds']) := by
  have q := enter_stays A none w
  have hgood : i.good = false := by simp [In.good, hi]
  unfold start at h
  split at h
  · cases h; cases hx
  · rename_i w1 he
    rw [he] at q
    have a1 : w1.app.2 = false := q.2.trans h0
    unfold loop at h
    simp only [a1, Bool.false_eq_true, if_false] at h
    cases n with
    | zero => cases h
    | succ n =>
      simp only at h
      split at h
      · cases h
      · rename_i w2 hp
        have q2 := stays_prompt hp
        simp only [hgood, Bool.false_eq_true, if_false, exitThen, getline, hi, if_true] at h
        split at h
        · cases h
        · cases h; cases hx
        · rename_i w3 e3
          split at h
          · cases h
          · cases h; cases hx
          · rename_i w4 e4
            obtain ⟨_, evs, k1, _, k2⟩ := exit_ends A e3
            obtain ⟨k3, evs', k4, _, k5⟩ := exit_ends A e4
            obtain ⟨c, rfl⟩ := k2 rfl
            obtain ⟨c', rfl⟩ := k5 rfl
            unfold loop at h
            simp only [k3, if_true] at h
            cases h
            refine ⟨rfl, c, c', ?_⟩
            rw [k4, k1, q2.1, q.1, hl, List.nil_append]

/-- With a text that has been read already. -/
example : ending (start onFile 3 9 { In.of bs!"any 1\n" with eof := true } fileWorld) = some ([1, 3, 1, 3], false, []) := by decide +kernel

end
end Verif.Props
