import Verif.Model.Descriptors
import Verif.Props.Keyboard

set_option linter.unusedSimpArgs false

/-!
# Property C98: the descriptors of the Linux keyboard
-/

namespace Verif.Props
open Descriptors
open Keyboard (Kb)

variable {α : Type}

/-- What holds in every execution in which no signal interrupts `select`. -/
structure Held (s : Descriptors.St α) : Prop where
  /-- the two ends of the pipe, and that the first one can be put into a set -/
  ends : ∃ r w, s.ends = some (r, w) ∧ r < setSize ∧
    s.files.Perm ((if s.kb.reader = .ended then [] else [r]) ++ (if s.kb.stopped then [] else [w]) ++ s.others)
  nodup : s.files.Nodup
  reading : s.reading = true ↔ s.kb.reader ≠ .ended
  stopped : s.kb.reader = .ended → s.kb.stopped = true

theorem held_create (manual : α → α) (tty : α) (files : List Nat) (hf : files.Nodup) (r w : Nat) (hp : Pipe files (some (r, w))) (hn : ∃ n, n < setSize ∧ n ∉ files) :
    Held (Descriptors.create manual tty files (some (r, w))) := by
  obtain ⟨h1, h2, h3, h4⟩ := hp
  obtain ⟨n, hn1, hn2⟩ := hn
  have hr : r < setSize := by
    by_cases hlt : n < r
    · exact absurd (h4 n hlt) hn2
    · omega
  refine ⟨⟨r, w, rfl, hr, ?_⟩, ?_, ?_, ?_⟩
  · simp [Descriptors.create, Keyboard.init]
  · simp only [Descriptors.create, List.nodup_cons, List.mem_cons]
    exact ⟨fun h => h.elim (by omega) h1, h2, hf⟩
  · simp [Descriptors.create, Keyboard.init]
  · simp [Descriptors.create, Keyboard.init]

/-- Events that leave the state of the reader thread as far as descriptors are concerned. -/
theorem kb_plain {p : Platform} {manual : α → α} {k k' : Kb α} {e : Keyboard.Ev α} (h : Keyboard.step p manual k e = some k') (h1 : e ≠ .ready) (h2 : e ≠ .signal) (h3 : e ≠ .stop) :
    (k'.reader = .ended ↔ k.reader = .ended) ∧ k'.stopped = k.stopped := by
  cases e with
  | ready => exact absurd rfl h1
  | signal => exact absurd rfl h2
  | stop => exact absurd rfl h3
  | check =>
    simp only [Keyboard.step] at h
    split at h
    · rename_i hc; cases h; simp [hc.1]
    · cases h
  | getc =>
    simp only [Keyboard.step] at h
    cases hr : k.reader with
    | get pc =>
      have ha : ∀ c, Keyboard.step.after p pc c ≠ .ended := by
        intro c
        unfold Keyboard.step.after
        cases Keyboard.next p pc c <;> simp
      rw [hr] at h
      simp only at h
      repeat' split at h
      all_goals cases h
      all_goals simp [ha]
    | _ => rw [hr] at h; cases h
  | post =>
    simp only [Keyboard.step] at h
    split at h
    · rename_i hc; cases h; simp [hc]
    · cases h
  | _ =>
    simp only [Keyboard.step] at h
    repeat' split at h
    all_goals cases h
    all_goals simp

theorem held_step {ignored : Bool} {p : Platform} {manual : α → α} {s : Descriptors.St α} (hs : Held s) {e : Descriptors.Ev α} (he : e ≠ .kb .signal) :
    ∃ o, Descriptors.step ignored p manual s e = .ok o ∧ ∀ s', o = some s' → Held s' := by
  obtain ⟨⟨r, w, hE, hr, hperm⟩, hnd, hrd, hst⟩ := hs
  cases e with
  | «open» n =>
    simp only [Descriptors.step]
    split
    · exact ⟨none, rfl, by simp⟩
    · rename_i hn
      refine ⟨_, rfl, ?_⟩
      intro s' h
      cases h
      refine ⟨⟨r, w, hE, hr, ?_⟩, List.nodup_cons.2 ⟨hn, hnd⟩, hrd, hst⟩
      exact (hperm.cons n).trans (List.perm_middle.symm)
  | close n =>
    simp only [Descriptors.step]
    split
    · rename_i hn
      refine ⟨_, rfl, ?_⟩
      intro s' h
      cases h
      refine ⟨⟨r, w, hE, hr, ?_⟩, hnd.erase n, hrd, hst⟩
      have h1 := hperm.erase n
      have hd := hperm.nodup hnd
      rw [List.nodup_append] at hd
      rw [List.erase_append_right] at h1
      · exact h1
      · intro hc; exact hd.2.2 n hc n hn rfl
    · exact ⟨none, rfl, by simp⟩
  | kb e =>
    cases hk : Keyboard.step p manual s.kb e with
    | none => exact ⟨none, by simp only [Descriptors.step, hk], by simp⟩
    | some k =>
      cases e with
      | signal => exact absurd rfl he
      | check =>
        have hpl := kb_plain hk (by simp) (by simp) (by simp)
        refine ⟨some { s with kb := k }, by simp only [Descriptors.step, hk, hE, hr, if_true], ?_⟩
        intro s' h
        cases h
        exact ⟨⟨r, w, hE, hr, by simpa only [hpl.1, hpl.2] using hperm⟩, hnd, by simpa only [ne_eq, hpl.1] using hrd, by simpa only [hpl.1, hpl.2] using hst⟩
      | ready =>
        have hk' := hk
        simp only [Keyboard.step] at hk'
        split at hk'
        · rename_i hsel
          split at hk'
          · rename_i hstop
            cases hk'
            refine ⟨some { s with kb := { s.kb with reader := .ended }, reading := false, files := s.files.erase r }, by simp [Descriptors.step, hk, hE], ?_⟩
            intro s' h
            cases h
            rw [hsel, hstop] at hperm
            refine ⟨⟨r, w, hE, hr, ?_⟩, hnd.erase r, by simp, fun _ => hstop⟩
            have h1 := hperm.erase r
            simpa [hstop] using h1
          · rename_i hstop
            split at hk'
            · cases hk'
              refine ⟨some { s with kb := { s.kb with reader := .get .first } }, by simp [Descriptors.step, hk, hE], ?_⟩
              intro s' h
              cases h
              refine ⟨⟨r, w, hE, hr, ?_⟩, hnd, ?_, by simp⟩
              · simpa [hsel] using hperm
              · simpa [hsel] using hrd
            · cases hk'
        · cases hk'
      | stop =>
        simp only [Descriptors.step, hk]
        cases hstop : s.kb.stopped with
        | true => exact ⟨none, by simp, by simp⟩
        | false =>
          have hne : s.kb.reader ≠ .ended := fun h => by rw [hst h] at hstop; cases hstop
          refine ⟨some { s with kb := k, files := s.files.erase w }, by simp [hE, hrd.2 hne], ?_⟩
          intro s' h
          cases h
          simp only [Keyboard.step] at hk
          cases hk
          refine ⟨⟨r, w, hE, hr, ?_⟩, hnd.erase w, hrd, by simp⟩
          rw [if_neg hne, hstop] at hperm
          have h1 := hperm.erase w
          have hrw : r ≠ w := by
            have hd := hperm.nodup hnd
            simp at hd
            exact hd.1.1
          simp only [Bool.false_eq_true, if_false, List.cons_append, List.nil_append] at h1
          rw [List.erase_cons_tail (by simp [hrw]), List.erase_cons_head] at h1
          simpa [hne] using h1
      | _ =>
        have hpl := kb_plain hk (by simp) (by simp) (by simp)
        refine ⟨some { s with kb := k }, by simp only [Descriptors.step, hk], ?_⟩
        intro s' h
        cases h
        exact ⟨⟨r, w, hE, hr, by simpa only [hpl.1, hpl.2] using hperm⟩, hnd, by simpa only [ne_eq, hpl.1] using hrd, by simpa only [hpl.1, hpl.2] using hst⟩

theorem held_run {ignored : Bool} {p : Platform} {manual : α → α} (es : List (Descriptors.Ev α)) : ∀ {s : Descriptors.St α}, Held s → .kb .signal ∉ es →
    ∃ o, Descriptors.run ignored p manual es s = .ok o ∧ ∀ s', o = some s' → Held s' := by
  induction es with
  | nil => intro s hs _; exact ⟨some s, rfl, fun s' h => by cases h; exact hs⟩
  | cons e es ih =>
    intro s hs he
    obtain ⟨o, h1, h2⟩ := held_step (ignored := ignored) (p := p) (manual := manual) hs (e := e) (fun h => he (by simp [h]))
    simp only [Descriptors.run, h1]
    cases o with
    | none => exact ⟨none, rfl, by simp⟩
    | some s1 => exact ih (h2 s1 rfl) (fun h => he (by simp [h]))

/-- **C98** (part) If `pipe` succeeds and one of the descriptors below 1024 is free, then in no execution without a signal is anything undefined, nor is the process killed; while the keyboard exists, it has two descriptors; and once the destructor has
    returned (`Stop` has been called and the thread has ended) exactly the descriptors of the rest of the program are open. -/
theorem C98_released_partial (ignored : Bool) (p : Platform) (manual : α → α) (tty : α) (files : List Nat) (hf : files.Nodup) (ends : Nat × Nat) (hp : Pipe files (some ends)) (hn : ∃ n, n < 1024 ∧ n ∉ files)
    (es : List (Descriptors.Ev α)) (he : .kb .signal ∉ es) :
    ∃ o, Descriptors.run ignored p manual es (Descriptors.create manual tty files (some ends)) = .ok o ∧
      ∀ s, o = some s → s.files.length ≤ s.others.length + 2 ∧ (s.kb.stopped = true → s.kb.reader = .ended → s.files.Perm s.others) := by
  obtain ⟨r, w⟩ := ends
  obtain ⟨o, h1, h2⟩ := held_run (ignored := ignored) (p := p) (manual := manual) es (held_create manual tty files hf r w hp hn) he
  refine ⟨o, h1, fun s hs => ?_⟩
  obtain ⟨⟨r', w', _, _, hperm⟩, _, _, _⟩ := h2 s hs
  constructor
  · have := hperm.length_eq
    simp only [List.length_append] at this
    have l1 : (if s.kb.reader = .ended then [] else [r']).length ≤ 1 := by split <;> simp
    have l2 : (if s.kb.stopped then [] else [w']).length ≤ 1 := by split <;> simp
    omega
  · intro a b
    simpa [a, b] using hperm

/-- Descriptors 0-3 are open. A key is pressed, the program opens a file, and the keyboard is destroyed. -/
example : ∃ s : Descriptors.St Nat, Pipe [0, 1, 2, 3] (some (4, 5)) ∧
    Descriptors.run false plat id [.kb (.arrive 97), .kb .check, .kb .ready, .kb .getc, .open 6, .kb .post, .kb .check, .kb .stop, .kb .ready] (Descriptors.create id 0 [0, 1, 2, 3] (some (4, 5))) = .ok (some s) ∧
    s.kb.reader = .ended ∧ s.files = [6, 0, 1, 2, 3] := ⟨_, by simp [Pipe]; omega, rfl, rfl, rfl⟩

/-- **C98 refuted** When all descriptors below 1024 are in use, the thread writes beyond the set of descriptors as soon as it waits for a key. -/
theorem C98_many_files_refuted (ignored : Bool) (p : Platform) (manual : α → α) (tty : α) (files : List Nat) (hf : ∀ n, n < 1024 → n ∈ files) (ends : Nat × Nat) (hp : Pipe files (some ends)) (es : List (Descriptors.Ev α)) :
    Descriptors.run ignored p manual (.kb .check :: es) (Descriptors.create manual tty files (some ends)) = .error .setOverflow := by
  obtain ⟨r, w⟩ := ends
  have hr : ¬ r < setSize := fun h => hp.1 (hf r h)
  simp [Descriptors.run, Descriptors.step, Descriptors.create, Keyboard.step, Keyboard.init, hr]

example : Pipe (List.range 1024) (some (1024, 1025)) := by
  refine ⟨by simp, by simp, by omega, fun n hn => by simpa using hn⟩

/-- **C98 refuted** When `pipe` fails (no more descriptors), members that have never been set are used, by the thread as well as by the destructor. -/
theorem C98_no_descriptor_refuted (ignored : Bool) (p : Platform) (manual : α → α) (tty : α) (files : List Nat) (es : List (Descriptors.Ev α)) :
    Descriptors.run ignored p manual (.kb .check :: es) (Descriptors.create manual tty files none) = .error .indeterminate ∧
    Descriptors.run ignored p manual (.kb .stop :: es) (Descriptors.create manual tty files none) = .error .indeterminate := by
  constructor <;> simp [Descriptors.run, Descriptors.step, Descriptors.create, Keyboard.step, Keyboard.init]

/-- **C98 refuted** When a signal has interrupted `select`, the thread has closed its end of the pipe, and the destructor is killed by `SIGPIPE`, at whatever time it is called, unless the program ignores that signal. -/
theorem C98_signal_refuted (p : Platform) (manual : α → α) (tty : α) (files : List Nat) (ends : Nat × Nat) (hp : Pipe files (some ends)) (hn : ∃ n, n < 1024 ∧ n ∉ files) (es : List (Descriptors.Ev α)) (s : Descriptors.St α)
    (h : Descriptors.run false p manual (.kb .check :: .kb .signal :: es) (Descriptors.create manual tty files (some ends)) = .ok (some s)) (hs : s.kb.stopped = false) :
    Descriptors.step false p manual s (.kb .stop) = .error .sigpipe := by
  obtain ⟨r, w⟩ := ends
  have hr : r < setSize := by
    obtain ⟨h1, h2, h3, h4⟩ := hp
    obtain ⟨n, hn1, hn2⟩ := hn
    by_cases hlt : n < r
    · exact absurd (h4 n hlt) hn2
    · have : setSize = 1024 := rfl
      omega
  have gen : ∀ (es : List (Descriptors.Ev α)) (s0 s : Descriptors.St α), s0.ends = some (r, w) → s0.reading = false → Descriptors.run false p manual es s0 = .ok (some s) → s.ends = some (r, w) ∧ s.reading = false := by
    intro es
    induction es with
    | nil => intro s0 s h1 h2 h; cases h; exact ⟨h1, h2⟩
    | cons e es ih =>
      intro s0 s h1 h2 h
      simp only [Descriptors.run] at h
      cases hs1 : Descriptors.step false p manual s0 e with
      | error f => rw [hs1] at h; cases h
      | ok o =>
        rw [hs1] at h
        cases o with
        | none => cases h
        | some s1 =>
          refine ih s1 s ?_ ?_ h
          all_goals
            simp only [Descriptors.step] at hs1
            repeat' split at hs1
            all_goals cases hs1
            all_goals first | exact h1 | exact h2 | rfl
  have hb : s.ends = some (r, w) ∧ s.reading = false := by
    simp only [Descriptors.run, Descriptors.step, Descriptors.create, Keyboard.step, Keyboard.init, hr, and_self, if_true] at h
    exact gen es _ s rfl rfl h
  simp [Descriptors.step, Keyboard.step, hs, hb.1, hb.2]

example : ∃ s : Descriptors.St Nat, Descriptors.run false plat id [.kb .check, .kb .signal, .kb (.arrive 97)] (Descriptors.create id 0 [0, 1, 2] (some (3, 4))) = .ok (some s) ∧ s.kb.stopped = false := ⟨_, rfl, rfl⟩

end Verif.Props
