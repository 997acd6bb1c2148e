import Verif.Proofs.Frame

set_option linter.unusedSimpArgs false

/-!
# Feeding a line calls `Exit` at most once
-/

namespace Verif
open Spec
open FromString (Value)

variable {σ τ : Type}

/-- The relation holds between the states before and after each of the things that feeding a line consists of, apart from `Exit`. -/
structure NoExit (A : App σ τ) (R : World σ τ → World σ τ → Prop) : Prop where
  core : Core A R
  exit : ∀ w, R w (w.note (.builtin .exit))
  bang : ∀ w n, R w (w.note (.builtin (.bang n)))
  help : ∀ w s, R w ((w.note (.builtin .help)).put s)
  history : ∀ w s, R w ((w.note (.builtin .history)).put s)
  hist : ∀ (w : World σ τ) h, R w { w with hist := h }

section
variable {A : App σ τ} {R : World σ τ → World σ τ → Prop} (C : NoExit A R)
include C

/-- Feeding a line: without a call of `Exit`, or with one, which comes from an `exit` line (perhaps by way of `!`) and is the last thing if it throws nothing. -/
theorem feed_once_last (fuel : Nat) : ∀ (line : Str) (w w' : World σ τ) (x : Option Exn), feed A fuel line w = .ok (w', x) →
    R w w' ∨ ∃ w1 w2 x2, R w w1 ∧ exitSession A w1 = .ok (w2, x2) ∧ R w2 w' ∧ (x2 = none → w' = w2 ∧ x = none) := by
  have K := C.core
  induction fuel with
  | zero => intro line w w' x h; cases h
  | succ fuel ih =>
    intro line w w' x h
    obtain ⟨toks, hl⟩ := line_exists line
    by_cases ht : toks = []
    · subst ht; rw [feed_blank A hl] at h; cases h; exact .inl (K.refl _)
    · rw [feed_eq A hl ht] at h
      split at h
      · cases h
      · rename_i h1 hh
        have q0 : R w (w.entered h1) := C.hist w h1
        have rest : ∀ w2 o, catchAll A line (fallback A line toks (.ok (w2, o))) = .ok (w', x) → R w2 w' := by
          intro w2 o h
          by_cases ho : o = .notFound
          · subst ho
            simp only [fallback] at h
            cases hu : userPart A line toks w2 with
            | error f => rw [hu] at h; cases h
            | ok v =>
              obtain ⟨w3, o3⟩ := v
              rw [hu] at h
              exact K.trans (closed_userPart K line toks _ _ _ hu) (closed_catchAll K line _ _ _ _ h)
          · replace h : catchAll A line (.ok (w2, o)) = .ok (w', x) := by
              cases o with
              | notFound => exact absurd rfl ho
              | found => exact h
              | thrown e => exact h
            exact closed_catchAll K line _ _ _ _ h
        replace h : catchAll A line (fallback A line toks (scanGlobal A (feed A fuel) toks (w.entered h1))) = .ok (w', x) := h
        rcases scanGlobal_cases A (feed A fuel) toks ht (w.entered h1) with ⟨hn, hg⟩ | ⟨hn, hg, _⟩ | ⟨rfl, hg⟩ | ⟨rfl, hg⟩ | ⟨rfl, hg⟩ | ⟨arg, n, rfl, hs1, hs2, hg⟩ <;> rw [hg] at h
        · exact .inl (K.trans q0 (rest _ _ h))
        · cases h
        · left
          unfold helpPart at h
          cases he : helpCmd ((w.entered h1).note (.builtin .help)) with
          | error f => rw [he] at h; cases h
          | ok w2 =>
            rw [he] at h
            unfold helpCmd at he
            split at he
            · cases he
            · cases he
              exact K.trans (K.trans q0 (C.help _ _)) (rest _ _ h)
        · right
          unfold exitPart at h
          cases he : exitSession A ((w.entered h1).note (.builtin .exit)) with
          | error f => rw [he] at h; cases h
          | ok v =>
            obtain ⟨w2, x2⟩ := v
            rw [he] at h
            refine ⟨_, w2, x2, K.trans q0 (C.exit _), he, rest _ _ h, ?_⟩
            rintro rfl
            cases h
            exact ⟨rfl, rfl⟩
        · left
          unfold historyPart at h
          exact K.trans (K.trans q0 (C.history _ _)) (rest _ _ h)
        · unfold bangPart at h
          cases hf : History.forgetLatest (w.entered h1).hist with
          | error f => rw [hf] at h; cases h
          | ok h2 =>
            rw [hf] at h
            simp only at h
            have q1 : R w { (w.entered h1).note (.builtin (.bang n)) with hist := h2 } := K.trans q0 (K.trans (C.bang _ n) (C.hist _ h2))
            cases ha : History.at h2 n with
            | error f => rw [ha] at h; cases h
            | ok r =>
              rw [ha] at h
              cases r with
              | none => exact .inl (K.trans q1 (rest _ _ h))
              | some c =>
                simp only at h
                cases hfd : feed A fuel c { (w.entered h1).note (.builtin (.bang n)) with hist := h2 } with
                | error f => rw [hfd] at h; cases h
                | ok v =>
                  obtain ⟨w2, x2⟩ := v
                  rw [hfd] at h
                  have q2 := rest _ _ h
                  rcases ih _ _ _ _ hfd with q | ⟨w3, w4, x4, k1, k2, k3, k4⟩
                  · exact .inl (K.trans q1 (K.trans q q2))
                  · refine .inr ⟨w3, w4, x4, K.trans q1 k1, k2, K.trans k3 q2, ?_⟩
                    intro hx
                    obtain ⟨rfl, rfl⟩ := k4 hx
                    cases h
                    exact ⟨rfl, rfl⟩

theorem feed_once (fuel : Nat) (line : Str) (w w' : World σ τ) (x : Option Exn) (h : feed A fuel line w = .ok (w', x)) :
    R w w' ∨ ∃ w1 w2 x2, R w w1 ∧ exitSession A w1 = .ok (w2, x2) ∧ R w2 w' := by
  rcases feed_once_last C fuel line w w' x h with h | ⟨w1, w2, x2, h1, h2, h3, _⟩
  · exact .inl h
  · exact .inr ⟨w1, w2, x2, h1, h2, h3⟩

end
end Verif
