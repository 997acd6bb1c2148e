import Verif.Model.StorageIO
import Verif.Props.Storage

set_option linter.unusedSimpArgs false

/-!
# Properties C84 and C85: failing file operations, and several programs with one history file
-/

namespace Verif.Props
open Verif.Storage

/-! ### C84 -/

theorem newContents_noNewline (s : FileStore) (cmds : List Str) (h : NoNewline cmds) : NoNewline (lastN s.maxSize (s.Commands ++ cmds)) := by
  intro c hc
  have := List.mem_of_mem_drop hc
  simp only [List.mem_append] at this
  rcases this with h1 | h1
  · exact commands_noNewline s c h1
  · exact h c h1

theorem commandsIO_whole (s : FileStore) (n : Nat) (h : ∀ b, s.file = some b → b.length ≤ n) : s.CommandsIO (some n) = s.Commands := by
  obtain ⟨m, f⟩ := s
  cases f with
  | none => rfl
  | some b => simp only [FileStore.CommandsIO, FileStore.Commands]; rw [List.take_of_length_le (h b rfl)]

/-- **C84** (part) If the history file can be read, then whatever happens while it is written, the commands read from it afterwards are the old ones (it could not be opened), or those that should have been written up to some place,
    where one may be cut. Missing: files that can be written but not read, and that nothing stored is lost; both are refuted below. -/
theorem C84_write_fails_partial (s : FileStore) (cmds : List Str) (h : NoNewline cmds) (fate : Fate) (n : Nat) (hr : fate.read = some n) (hn : ∀ b, s.file = some b → b.length ≤ n) :
    (fate.write = none → s.storeIO cmds fate = s) ∧
    (∀ m, fate.write = some m → CutPrefix (lastN s.maxSize (s.Commands ++ cmds)) (s.storeIO cmds fate).Commands) ∧
    (∀ m, fate.write = some m → (s.newContents cmds).length ≤ m → (s.storeIO cmds fate).Commands = lastN s.maxSize (s.Commands ++ cmds)) := by
  refine ⟨fun hw => by simp [FileStore.storeIO, hw], ?_, ?_⟩
  · intro m hw
    have := cut_render _ (newContents_noNewline s cmds h) m
    rw [← appendBounded_eq] at this ⊢
    simpa [FileStore.storeIO, hw, hr, commandsIO_whole s n hn, FileStore.Commands] using this
  · intro m hw hm
    rw [← store_commands s cmds h]
    simp only [FileStore.storeIO, hw, hr, commandsIO_whole s n hn]
    unfold FileStore.newContents at hm
    rw [List.take_of_length_le hm]
    rfl

example : (FileStore.mk 10 (some bs!"a\nb\n")).storeIO [bs!"cd"] ⟨some 4, some 6⟩ = ⟨10, some bs!"a\nb\ncd"⟩ := by rfl

/-- **C84 refuted** If the file cannot be opened for reading at this moment, or reading fails, what it contained is lost, although `Store` could have left it alone. -/
theorem C84_read_fails_refuted : ∃ (s : FileStore) (cmds : List Str), s.Commands = [bs!"a", bs!"b"] ∧
    (∀ m, 2 ≤ m → (s.storeIO cmds ⟨none, some m⟩).Commands = [bs!"c"]) ∧ ∀ m, 4 ≤ m → (s.storeIO cmds ⟨some 1, some m⟩).Commands = [bs!"a", bs!"c"] := by
  refine ⟨⟨10, some bs!"a\nb\n"⟩, [bs!"c"], by rfl, ?_, ?_⟩
  · intro m hm
    obtain ⟨k, rfl⟩ := Nat.exists_eq_add_of_le hm
    rw [Nat.add_comm]
    simp [FileStore.storeIO, FileStore.CommandsIO, appendBounded, FileStore.Commands, getlines]
  · intro m hm
    obtain ⟨k, rfl⟩ := Nat.exists_eq_add_of_le hm
    rw [Nat.add_comm]
    simp [FileStore.storeIO, FileStore.CommandsIO, appendBounded, FileStore.Commands, getlines]

/-- **C84 refuted** If the disk is full, the file has been truncated already. -/
theorem C84_disk_full_refuted : ∃ (s : FileStore) (cmds : List Str), s.Commands = [bs!"a", bs!"b"] ∧ (s.storeIO cmds ⟨some 4, some 0⟩).Commands = [] :=
  ⟨⟨10, some bs!"a\nb\n"⟩, [bs!"c"], by rfl, by rfl⟩

/-! ### C85 -/

/-- **C85** (part) If the calls of `Store` of several programs do not overlap, the file has in the end the most recent of all the commands, in the order of the calls. Missing: overlapping calls, refuted below. -/
theorem C85_serial_partial (size : Nat) (c : Nat → List Str) (hc : ∀ i, NoNewline (c i)) (is : List Nat) (hd : is.Nodup) : ∀ (file : Option Str) (ps : List Phase), (∀ i ∈ is, ps[i]? = some (.idle (c i))) →
    ∃ file' ps', shareRun size (is.flatMap (fun i => [i, i])) (file, ps) = some (file', ps') ∧ (is ≠ [] → FileStore.Commands ⟨size, file'⟩ = lastN size (FileStore.Commands ⟨size, file⟩ ++ is.flatMap c)) := by
  induction is with
  | nil => intro file ps _; exact ⟨file, ps, rfl, fun h => absurd rfl h⟩
  | cons i is ih =>
    intro file ps hps
    have hi := hps i (by simp)
    obtain ⟨hlt, hv⟩ := List.getElem?_eq_some_iff.1 hi
    rw [List.nodup_cons] at hd
    have hps' : ∀ j ∈ is, ((ps.set i (.read (appendBounded size (FileStore.Commands ⟨size, file⟩) (c i)))).set i Phase.done)[j]? = some (.idle (c j)) := by
      intro j hj
      have hij : i ≠ j := by rintro rfl; exact hd.1 hj
      simp [List.getElem?_set, hij, hps j (by simp [hj])]
    obtain ⟨file', ps', h1, h2⟩ := ih hd.2 (FileStore.store ⟨size, file⟩ (c i)).file _ hps'
    refine ⟨file', ps', ?_, fun _ => ?_⟩
    · rw [← h1]
      simp [shareRun, shareStep, hi, hv, List.getElem?_set, hlt, FileStore.store, FileStore.newContents]
    · have hs := store_commands ⟨size, file⟩ (c i) (hc i)
      have hs' : FileStore.Commands ⟨size, (FileStore.store ⟨size, file⟩ (c i)).file⟩ = lastN size (FileStore.Commands ⟨size, file⟩ ++ c i) := hs
      by_cases he : is = []
      · subst he
        simp only [List.flatMap_nil, shareRun, Option.some.injEq, Prod.mk.injEq] at h1
        rw [← h1.1, hs']
        simp
      · rw [h2 he, hs', List.flatMap_cons, ← List.append_assoc, lastN_append_lastN]

example : ∃ ps, shareRun 3 [1, 1, 0, 0] (some bs!"x\n", [.idle [bs!"a", bs!"b"], .idle [bs!"c"]]) = some (some bs!"c\na\nb\n", ps) := ⟨_, rfl⟩

/-- **C85 refuted** If two programs store their commands at the same time, the commands of one of them are lost. -/
theorem C85_overlap_refuted : ∃ ps, shareRun 100 [0, 1, 0, 1] (some bs!"x\n", [.idle [bs!"a"], .idle [bs!"b"]]) = some (some bs!"x\nb\n", ps) ∧ ∀ p ∈ ps, p = .done :=
  ⟨[.done, .done], by decide +kernel, by simp⟩

end Verif.Props
