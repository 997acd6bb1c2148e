import Verif.Props.Bang

set_option linter.unusedSimpArgs false

/-!
# C26: exactly when `! n` accesses the history out of bounds
-/

namespace Verif.Props
open Spec History

variable {σ τ : Type} (A : App σ τ)

/-- **C26 is false of the code** for every application: `! n` as the first command that a session records reads an element of an empty deque. -/
theorem C26_first_refuted (fuel : Nat) (line : Str) (w : World σ τ) (hw : WF w.hist) (hsz : 1 ≤ w.hist.maxSize) (h0 : History.base w.hist = 0) (hb : BangLine line) :
    feed A (fuel + 1) line w = .error (.ub .outOfRange) := by
  obtain ⟨toks, n, hl, hg⟩ := hb
  cases hg with
  | @bang arg n h1 h2 =>
    rcases hh : w.hist with ⟨mx, buf, cur, cmds, mode, ido⟩
    rw [hh] at hw hsz h0
    have hmx : ¬ 1 > mx := by simp only at hsz; omega
    have hnew : ∃ h, History.newCommand w.hist line = .ok h ∧ h.buffer = [line] ∧ h.idOfOldest = 0 := by
      rw [hh]
      simp only [History.base, entriesNewestFirst] at h0
      cases mode with
      | inserting =>
        simp only at h0
        have hbuf : buf = [] := List.length_eq_zero_iff.1 (by omega)
        have hid : ido = 0 := by omega
        subst hbuf hid
        exact ⟨_, rfl, by simp [History.insert, hmx], by simp [History.insert, hmx]⟩
      | browsing =>
        have hcur := hw.browse rfl
        cases buf with
        | nil => simp at hcur
        | cons x rest =>
          simp only [List.tail_cons] at h0
          have hbuf : rest = [] := List.length_eq_zero_iff.1 (by omega)
          have hid : ido = 0 := by omega
          subst hbuf hid
          exact ⟨_, rfl, by simp, by simp⟩
    obtain ⟨h, e1, e2, e3⟩ := hnew
    rw [feed_eq A hl (by simp), e1]
    simp only [body, scanGlobal_bang A _ _ h1 h2, bangPart, World.entered, History.forgetLatest, e2, History.at, History.idToIndex, e3, History.wsub]
    have : ¬ (n < 0 ∨ n > 2 ^ 64 - (1 - 0)) := by omega
    rw [if_neg (by simp; omega)]
    simp [catchAll]

/-- **C26 is false of the code** for every application: in a session of history size 0 `! n` removes the front of an empty deque. -/
theorem C26_zero_refuted (fuel : Nat) (line : Str) (w : World σ τ) (hw : WF w.hist) (hsz : w.hist.maxSize = 0) (hb : BangLine line) :
    feed A (fuel + 1) line w = .error (.ub .emptyContainer) := by
  obtain ⟨toks, n, hl, hg⟩ := hb
  cases hg with
  | @bang arg n h1 h2 =>
    have hbuf : w.hist.buffer = [] := List.length_eq_zero_iff.1 (by have := hw.bound; omega)
    have hmode : w.hist.mode = .inserting := by
      cases hm : w.hist.mode with
      | inserting => rfl
      | browsing => have := hw.browse hm; rw [hbuf] at this; simp at this
    have hnew : ∃ h, History.newCommand w.hist line = .ok h ∧ h.buffer = [] := by
      refine ⟨_, by simp only [History.newCommand, hmode, hbuf]; rfl, ?_⟩
      simp [History.insert, hsz, hbuf]
    obtain ⟨h, e1, e2⟩ := hnew
    rw [feed_eq A hl (by simp), e1]
    simp only [body, scanGlobal_bang A _ _ h1 h2, bangPart, World.entered, History.forgetLatest, e2, catchAll]

/-- **C26** (partial) As long as no entry of the history is itself a `! n` line, this is all: a line accesses the history out of bounds exactly if it is a `! n` line and nothing has been recorded before, or nothing is kept. -/
theorem C26_exact_partial (fuel : Nat) (line : Str) (w : World σ τ) (hw : WF w.hist) (hf : History.BangFree w.hist) :
    (feed A (fuel + 2) line w = .error (.ub .outOfRange) ∨ feed A (fuel + 2) line w = .error (.ub .emptyContainer)) ↔ BangLine line ∧ (w.hist.maxSize = 0 ∨ History.base w.hist = 0) := by
  constructor
  · intro h
    by_cases hgood : 1 ≤ w.hist.maxSize ∧ 1 ≤ History.base w.hist
    · rcases h with h | h
      · exact absurd rfl (C26_safe_partial A fuel line w ⟨hw, hgood.1, hf, hgood.2⟩ _ h).1
      · exact absurd rfl (C26_safe_partial A fuel line w ⟨hw, hgood.1, hf, hgood.2⟩ _ h).2.1
    · refine ⟨?_, by omega⟩
      obtain ⟨toks, hl⟩ := line_exists line
      by_cases ht : toks = []
      · subst ht; rw [feed_blank A hl] at h; simp at h
      · have key : ∀ f, feed A (fuel + 2) line w = .error f → f = .ub .outOfRange ∨ f = .ub .emptyContainer → BangLine line := by
          intro f hf hk
          rcases feed_level_fault A (fuel + 1) hl ht w _ hf with h | h | ⟨h1, a1, h | ⟨n, hb, _⟩⟩
          · have := h.2
            rcases hk with rfl | rfl <;> simp at this
          · obtain ⟨_, a, _⟩ := History.newCommand_ok hw line
            rw [a] at h; cases h
          · obtain ⟨_, a, b, _⟩ := History.newCommand_ok hw line
            rw [a] at a1; cases a1
            rw [C29_saved_is_suffix_partial _ b] at h; cases h
          · exact ⟨toks, n, hl, hb⟩
        rcases h with h | h
        · exact key _ h (.inl rfl)
        · exact key _ h (.inr rfl)
  · rintro ⟨hb, h⟩
    by_cases h0 : w.hist.maxSize = 0
    · exact .inr (C26_zero_refuted A (fuel + 1) line w hw h0 hb)
    · exact .inl (C26_first_refuted A (fuel + 1) line w hw (by omega) (by omega) hb)

/-- The hypotheses are satisfiable: a new session without stored commands, and one of history size 0. -/
example : WF Sample.world.hist ∧ 1 ≤ Sample.world.hist.maxSize ∧ History.base Sample.world.hist = 0 ∧ BangLine bs!"! 12" ∧ WF (History.init 0) ∧ (History.init 0).maxSize = 0 :=
  ⟨(C33_new_session_ready 10 []).1, by decide, by decide, ⟨_, 12, (split_iff _ _).1 rfl, .bang ⟨bs!"12", .inl rfl, ⟨by decide, by unfold Number.Digit; decide⟩, by decide⟩ (by decide)⟩, wf_init 0, rfl⟩

end Verif.Props
