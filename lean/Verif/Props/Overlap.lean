import Verif.Props.StorageIO
import Verif.Props.Net

set_option linter.unusedSimpArgs false

/-!
# Stronger forms of C81 and C85
-/

namespace Verif.Props

/-! ### C81 -/

section
open Verif.Net
open Telnet (Server)

/-- **C81** (exactly) A server that exists can be destroyed while the scheduler goes on, whatever happens afterwards, just if no accept operation is in progress: that is (C80) after the enter action of the `Cli` has thrown. -/
theorem C81_exact_partial {σ τ : Type} (A : App σ τ) (S : Server σ) (s : Acceptor σ τ) (hl : s.live = true) :
    (∀ es, ∃ r, knocks A S (.destroy :: es) s = .ok r) ↔ s.op = false := by
  refine ⟨fun h => ?_, fun h es => C81_partial A S s h es⟩
  cases ho : s.op with
  | false => rfl
  | true =>
    obtain ⟨r, hr⟩ := h [.error]
    simp [knocks, knock, hl, ho] at hr

example : (Acceptor.init Sample.world).live = true ∧ (Acceptor.init Sample.world).op = true := ⟨rfl, rfl⟩

end

/-! ### C85 -/

section
open Verif.Storage

theorem shareRun_snoc (size : Nat) (is : List Nat) (i : Nat) : ∀ st, shareRun size (is ++ [i]) st = (shareRun size is st).bind fun st => shareStep size st i := by
  induction is with
  | nil =>
    intro st
    simp only [List.nil_append, shareRun, Option.bind_some]
    cases shareStep size st i <;> rfl
  | cons j is ih =>
    intro st
    simp only [List.cons_append, shareRun]
    cases shareStep size st j with
    | none => rfl
    | some st => exact ih st

theorem commands_render (size : Nat) (l : List Str) (h : NoNewline l) : FileStore.Commands ⟨size, some (l.flatMap fun line => line ++ [b%'\n'])⟩ = l := by
  have := getlines_render _ [] h
  simp only [List.append_nil, getlines, if_true] at this
  exact this

/-- Different programs that have written the file. -/
def Wrote (ps : List Phase) (chain : List Nat) : Prop := chain.Nodup ∧ ∀ i ∈ chain, ps[i]? = some Phase.done

theorem wrote_set {ps : List Phase} {chain : List Nat} (h : Wrote ps chain) (i : Nat) (p : Phase) (hi : ps[i]? ≠ some Phase.done) : Wrote (ps.set i p) chain := by
  refine ⟨h.1, fun j hj => ?_⟩
  have hij : i ≠ j := by rintro rfl; exact hi (h.2 i hj)
  simp [List.getElem?_set, hij, h.2 j hj]

/-- What holds after the steps `is`. -/
structure SharedFile (size : Nat) (c : Nat → List Str) (file0 : Option Str) (is : List Nat) (file : Option Str) (ps : List Phase) : Prop where
  phase : ∀ i p, ps[i]? = some p → (p = Phase.idle (c i) ∧ is.count i = 0) ∨ ((∃ l, p = Phase.read l) ∧ is.count i = 1) ∨ (p = Phase.done ∧ is.count i = 2)
  reads : ∀ (i : Nat) l, ps[i]? = some (Phase.read l) → ∃ chain, Wrote ps chain ∧ l = lastN size (FileStore.Commands ⟨size, file0⟩ ++ chain.flatMap c ++ c i)
  file : ((∀ i : Nat, ps[i]? ≠ some Phase.done) ∧ file = file0) ∨
    ∃ (chain : List Nat) (last : Nat) (pre post : List Nat), Wrote ps (chain ++ [last]) ∧
      FileStore.Commands ⟨size, file⟩ = lastN size (FileStore.Commands ⟨size, file0⟩ ++ (chain ++ [last]).flatMap c) ∧
      is = pre ++ last :: post ∧ last ∈ pre ∧ ∀ j ∈ post, is.count j = 1

theorem sharedFile_step {size : Nat} {c : Nat → List Str} (hc : ∀ i, NoNewline (c i)) {file0 file file' : Option Str} {is : List Nat} {ps ps' : List Phase} (H : SharedFile size c file0 is file ps) (i : Nat)
    (h : shareStep size (file, ps) i = some (file', ps')) : SharedFile size c file0 (is ++ [i]) file' ps' := by
  unfold shareStep at h
  simp only at h
  have cnt : ∀ j, (is ++ [i]).count j = is.count j + if i = j then 1 else 0 := by
    intro j
    rw [List.count_append, List.count_singleton]
    by_cases hij : i = j <;> simp [hij]
  split at h
  · -- a program reads the file
    rename_i cmds hi
    have hlt := (List.getElem?_eq_some_iff.1 hi).1
    have hnd : ps[i]? ≠ some Phase.done := by rw [hi]; simp
    have h0 : cmds = c i ∧ is.count i = 0 := by
      rcases H.phase i _ hi with ⟨h1, h2⟩ | ⟨⟨l, h1⟩, _⟩ | ⟨h1, _⟩
      · simp only [Phase.idle.injEq] at h1; exact ⟨h1, h2⟩
      · cases h1
      · cases h1
    simp only [Option.some.injEq, Prod.mk.injEq] at h
    obtain ⟨rfl, rfl⟩ := h
    refine ⟨?_, ?_, ?_⟩
    · intro j p hj
      rw [cnt]
      by_cases hij : i = j
      · subst hij
        simp only [List.getElem?_set, hlt, if_true, Option.some.injEq] at hj
        refine .inr (.inl ⟨⟨_, hj.symm⟩, by simp [h0.2]⟩)
      · rw [List.getElem?_set] at hj
        simp only [hij, if_false] at hj
        simpa [hij] using H.phase j p hj
    · intro j l hj
      by_cases hij : i = j
      · subst hij
        simp only [List.getElem?_set, hlt, if_true, Option.some.injEq, Phase.read.injEq] at hj
        rw [appendBounded_eq, h0.1] at hj
        rcases H.file with ⟨_, hf⟩ | ⟨chain, last, pre, post, hw, hf, _⟩
        · exact ⟨[], ⟨by simp, by simp⟩, by rw [← hj, hf]; simp⟩
        · refine ⟨chain ++ [last], wrote_set hw i _ hnd, ?_⟩
          rw [← hj, hf, lastN_append_lastN]
      · rw [List.getElem?_set] at hj
        simp only [hij, if_false] at hj
        obtain ⟨chain, hw, hl⟩ := H.reads j l hj
        exact ⟨chain, wrote_set hw i _ hnd, hl⟩
    · rcases H.file with ⟨hd, hf⟩ | ⟨chain, last, pre, post, hw, hf, h1, h2, h3⟩
      · refine .inl ⟨fun j => ?_, hf⟩
        rw [List.getElem?_set]
        split
        · simp
        · exact hd j
      · refine .inr ⟨chain, last, pre, post ++ [i], wrote_set hw i _ hnd, hf, by rw [h1]; simp, h2, ?_⟩
        intro j hj
        rw [cnt]
        simp only [List.mem_append, List.mem_singleton] at hj
        rcases hj with hj | rfl
        · have : i ≠ j := by rintro rfl; rw [h3 i hj] at h0; exact absurd h0.2 (by simp)
          simp [this, h3 j hj]
        · simp [h0.2]
  · -- a program writes the file
    rename_i cmds hi
    have hlt := (List.getElem?_eq_some_iff.1 hi).1
    have hnd : ps[i]? ≠ some Phase.done := by rw [hi]; simp
    have h0 : is.count i = 1 := by
      rcases H.phase i _ hi with ⟨h1, _⟩ | ⟨_, h2⟩ | ⟨h1, _⟩
      · cases h1
      · exact h2
      · cases h1
    obtain ⟨chain, hw, hl⟩ := H.reads i cmds hi
    have hni : i ∉ chain := fun hm => hnd (hw.2 i hm)
    have hnn : NoNewline cmds := by
      rw [hl]
      intro x hx
      have := List.mem_of_mem_drop hx
      simp only [List.mem_append, List.mem_flatMap] at this
      rcases this with (h1 | ⟨j, _, h1⟩) | h1
      · exact commands_noNewline _ x h1
      · exact hc j x h1
      · exact hc i x h1
    simp only [Option.some.injEq, Prod.mk.injEq] at h
    obtain ⟨rfl, rfl⟩ := h
    have hdone : (ps.set i Phase.done)[i]? = some Phase.done := by simp [List.getElem?_set, hlt]
    refine ⟨?_, ?_, ?_⟩
    · intro j p hj
      rw [cnt]
      by_cases hij : i = j
      · subst hij
        rw [hdone] at hj
        cases hj
        exact .inr (.inr ⟨rfl, by simp [h0]⟩)
      · rw [List.getElem?_set] at hj
        simp only [hij, if_false] at hj
        simpa [hij] using H.phase j p hj
    · intro j l hj
      by_cases hij : i = j
      · subst hij; rw [hdone] at hj; cases hj
      · rw [List.getElem?_set] at hj
        simp only [hij, if_false] at hj
        obtain ⟨chain', hw', hl'⟩ := H.reads j l hj
        exact ⟨chain', wrote_set hw' i _ hnd, hl'⟩
    · refine .inr ⟨chain, i, is, [], ⟨?_, ?_⟩, ?_, rfl, ?_, by simp⟩
      · rw [List.nodup_append]
        refine ⟨hw.1, by simp, ?_⟩
        intro a ha b hb
        simp only [List.mem_singleton] at hb
        subst hb
        rintro rfl
        exact hni ha
      · intro j hj
        simp only [List.mem_append, List.mem_singleton] at hj
        rcases hj with hj | rfl
        · exact (wrote_set hw i Phase.done hnd).2 j hj
        · exact hdone
      · rw [commands_render size cmds hnn, hl]
        simp [List.flatMap_append]
      · exact List.count_pos_iff.1 (by omega)
  · cases h

/-- **C85** (part) For every interleaving of any number of programs that store their commands, each once: as long as none has written the file it is unchanged; afterwards it has the most recent of: the old commands, then those of
    some of the programs that have written it, each program once and its commands in order, the last one being the one that wrote last. So nothing is made up or stored twice, and the commands of a program are lost as a whole or
    not at all (if there is room). Missing: that none are lost (refuted in `C85_overlap_refuted`). -/
theorem C85_overlapping_partial (size : Nat) (c : Nat → List Str) (hc : ∀ i, NoNewline (c i)) (file file' : Option Str) (ps ps' : List Phase) (hp : ∀ i p, ps[i]? = some p → p = Phase.idle (c i)) (is : List Nat)
    (h : shareRun size is (file, ps) = some (file', ps')) :
    ((∀ i : Nat, ps'[i]? ≠ some Phase.done) ∧ file' = file) ∨
    ∃ (chain : List Nat) (last : Nat) (pre post : List Nat), (chain ++ [last]).Nodup ∧ (∀ i ∈ chain ++ [last], ps'[i]? = some Phase.done) ∧
      FileStore.Commands ⟨size, file'⟩ = lastN size (FileStore.Commands ⟨size, file⟩ ++ (chain ++ [last]).flatMap c) ∧
      is = pre ++ last :: post ∧ last ∈ pre ∧ ∀ j ∈ post, is.count j = 1 := by
  have key : ∀ (n : Nat) (is : List Nat) (file' : Option Str) (ps' : List Phase), is.length = n → shareRun size is (file, ps) = some (file', ps') → SharedFile size c file is file' ps' := by
    intro n
    induction n with
    | zero =>
      intro is file' ps' hn h
      have : is = [] := List.length_eq_zero_iff.1 hn
      subst this
      simp only [shareRun, Option.some.injEq, Prod.mk.injEq] at h
      obtain ⟨rfl, rfl⟩ := h
      refine ⟨fun i p hi => .inl ⟨hp i p hi, by simp⟩, fun i l hi => ?_, .inl ⟨fun i hi => ?_, rfl⟩⟩
      · cases hp i _ hi
      · cases hp i _ hi
    | succ n ih =>
      intro is file' ps' hn h
      have hne : is ≠ [] := by intro he; simp [he] at hn
      obtain ⟨is0, i, rfl⟩ : ∃ is0 i, is = is0 ++ [i] := ⟨is.dropLast, is.getLast hne, (List.dropLast_concat_getLast hne).symm⟩
      rw [shareRun_snoc] at h
      cases h0 : shareRun size is0 (file, ps) with
      | none => rw [h0] at h; cases h
      | some st =>
        rw [h0] at h
        exact sharedFile_step hc (ih is0 st.1 st.2 (by simpa using hn) h0) i h
  have H := key _ is file' ps' rfl h
  rcases H.file with hf | ⟨chain, last, pre, post, hw, hf, h1, h2, h3⟩
  · exact .inl hf
  · exact .inr ⟨chain, last, pre, post, hw.1, hw.2, hf, h1, h2, h3⟩

/-- Three programs, of which the first two overlap: the commands of the first are lost. -/
example : ∃ ps, shareRun 100 [0, 1, 0, 1, 2, 2] (some bs!"x\n", [.idle [bs!"a"], .idle [bs!"b"], .idle [bs!"c", bs!"d"]]) = some (some bs!"x\nb\nc\nd\n", ps) := ⟨[.done, .done, .done], by decide +kernel⟩

end
end Verif.Props
