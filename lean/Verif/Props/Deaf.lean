import Verif.Props.Processor

set_option linter.unusedSimpArgs false

/-!
# Property C64: exceptions that leave the press of the return key
-/

namespace Verif.Props
open Verif.Processor

section
variable {σ τ : Type}

/-- **C64** (refuted, in general) For every application: whenever an exception leaves the press of the return key, whatever the line and whatever threw, input is deactivated. -/
theorem C64_deaf_refuted (A : App σ τ) (fuel : Nat) (p p' : Proc σ τ) (e : Exn) (h : keypressed A fuel p .ret = .ok (p', some e)) : p'.active = false := by
  unfold keypressed at h
  simp only [bind, Except.bind, Terminal.keypressed, newCommand] at h
  split at h
  · cases h
  · split at h
    · cases h; rfl
    · split at h <;> cases h

/-- **C64** (refuted, in general) And every exception that leaves `Feed` of the line does leave the press of the return key, for every application. -/
theorem C64_leaves_refuted (A : App σ τ) (fuel : Nat) (p : Proc σ τ) (w : World σ τ) (e : Exn) (h : feed A fuel p.term.line (p.w.put bs!"\r\n") = .ok (w, some e)) :
    ∃ p', keypressed A fuel p .ret = .ok (p', some e) ∧ p'.active = false ∧ p'.w = w := by
  have h' : feed A fuel p.term.line { p.w with io := p.w.io.put bs!"\r\n" } = .ok (w, some e) := h
  refine ⟨⟨w, ⟨[], 0⟩, false⟩, ?_, rfl, rfl⟩
  unfold keypressed
  simp only [bind, Except.bind, Terminal.keypressed, newCommand, h']

example : ∃ w, feed Sample.strict 5 (Sample.proc Sample.world bs!"boom").term.line (Sample.world.put bs!"\r\n") = .ok (w, some (.std bs!"again")) := ⟨_, rfl⟩

end
end Verif.Props
