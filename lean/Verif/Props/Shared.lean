import Verif.Props.OutStream
import Verif.Props.StorageIO

set_option linter.unusedSimpArgs false

/-!
# C60 for sessions that share streams and streams in any state; C84 for all failures
-/

namespace Verif.Props
open Spec OutStream

/-! ### C60 -/

/-- What stream `k` gets from now on, if it has been registered `n` times since a session on it was last destroyed, and it is good or not, with a field width. -/
def obtains (k : Nat) : Nat → Bool → Nat → List (Nat × Nat) → List Op → Str
  | _, _, _, _, [] => []
  | n, good, width, live, .create s j :: ops => obtains k (if j = k then n + 1 else n) good width ((s, j) :: live) ops
  | n, good, width, live, .destroy s :: ops => obtains k (if (s, k) ∈ live then 0 else n) good width (live.filter (fun p => p.1 ≠ s)) ops
  | n, good, width, live, .write t :: ops => (List.replicate n t).flatten ++ obtains k n good width live ops
  | n, good, width, live, .putc c :: ops =>
    if good = true ∧ n ≠ 0 then List.replicate (width - 1) b%' ' ++ List.replicate n c ++ obtains k n good 0 live ops else obtains k n good width live ops
  | n, good, width, live, .own j t :: ops => (if j = k then t else []) ++ obtains k n good width live ops
  | n, good, width, live, .tune j g w :: ops => if j = k then obtains k n g w live ops else obtains k n good width live ops

/-- Sessions have identities of their own. -/
def Identified : List (Nat × Nat) → List Op → Prop
  | _, [] => True
  | live, .create s j :: ops => s ∉ live.map (·.1) ∧ Identified ((s, j) :: live) ops
  | live, .destroy s :: ops => Identified (live.filter (fun p => p.1 ≠ s)) ops
  | live, _ :: ops => Identified live ops

/-- `f`, so many times. -/
def times (f : Stream → Stream) : Nat → Stream → Stream
  | 0, o => o
  | n + 1, o => times f n (f o)

theorem upd_count (f : Stream → Stream) (k : Nat) : ∀ (l : List Nat) (s : St), (l.foldl (fun s k => s.upd k f) s).regs = s.regs ∧ (l.foldl (fun s k => s.upd k f) s).live = s.live ∧
    (l.foldl (fun s k => s.upd k f) s).streams k = times f (l.count k) (s.streams k)
  | [], s => ⟨rfl, rfl, rfl⟩
  | a :: l, s => by
    obtain ⟨h1, h2, h3⟩ := upd_count f k l (s.upd a f)
    refine ⟨h1, h2, ?_⟩
    rw [List.foldl_cons, h3]
    by_cases hk : k = a
    · subst hk; simp [St.upd, times]
    · simp [St.upd, hk, show ¬ a = k from fun e => hk e.symm, List.count_cons]

theorem times_sputn (t : Str) : ∀ (n : Nat) (o : Stream), times (sputn t) n o = { o with text := o.text ++ (List.replicate n t).flatten }
  | 0, o => by simp [times]
  | n + 1, o => by simp [times, times_sputn t n, sputn, List.replicate_succ]

theorem times_zero (c : Byte) : ∀ (n : Nat) (o : Stream), o.good = true → o.width = 0 → times (insertChar c) n o = { o with text := o.text ++ List.replicate n c }
  | 0, o, _, _ => by simp [times]
  | n + 1, o, h, hw => by
    have : insertChar c o = { o with text := o.text ++ [c] } := by obtain ⟨a, b, d, e⟩ := o; simp only at h hw; simp [insertChar, h, hw]
    rw [times, this, times_zero c n { o with text := o.text ++ [c] } h hw]
    simp [List.replicate_succ]

theorem times_bad (c : Byte) : ∀ (n : Nat) (o : Stream), o.good = false → times (insertChar c) n o = o
  | 0, o, _ => rfl
  | n + 1, o, h => by rw [times, show insertChar c o = o by simp [insertChar, h], times_bad c n o h]

/-- The registrations of stream `k`, and the live sessions. -/
structure Tallied (k n : Nat) (good : Bool) (width : Nat) (live : List (Nat × Nat)) (s : St) : Prop where
  live : ∀ p, p ∈ s.live ↔ p ∈ live
  ids : (s.live.map (·.1)).Nodup
  regs : s.regs.count k = n
  good : (s.streams k).good = good
  width : (s.streams k).width = width
  fill : (s.streams k).fill = b%' '

theorem found_named {l : List (Nat × Nat)} {i k : Nat} (h : (l.map (·.1)).Nodup) (hm : (i, k) ∈ l) : l.find? (fun p => p.1 == i) = some (i, k) := by
  induction l with
  | nil => cases hm
  | cons p l ih =>
    simp only [List.map_cons, List.nodup_cons] at h
    rcases List.mem_cons.1 hm with rfl | hm
    · simp
    · have hp : ¬ p.1 = i := fun e => h.1 (e ▸ List.mem_map.2 ⟨_, hm, rfl⟩)
      rw [List.find?_cons, show (p.1 == i) = false by simpa using hp]
      exact ih h.2 hm

theorem count_others (l : List Nat) {j k : Nat} (h : j ≠ k) : (l.filter (fun x => x != j)).count k = l.count k := by
  rw [List.count_filter]; simpa using fun e => h e.symm

theorem count_own (l : List Nat) (k : Nat) : (l.filter (fun x => x != k)).count k = 0 := by
  rw [List.count_eq_zero]; simp

theorem obtained (k : Nat) : ∀ (ops : List Op) (s : St) (n : Nat) (good : Bool) (width : Nat) (live : List (Nat × Nat)), Tallied k n good width live s → Identified live ops →
    ((run s ops).streams k).text = (s.streams k).text ++ obtains k n good width live ops
  | [], s, n, good, width, live, _, _ => by simp [run, obtains]
  | op :: ops, s, n, good, width, live, C, ha => by
    show ((run (step s op) ops).streams k).text = _
    cases op with
    | create i j =>
      obtain ⟨a1, a2⟩ := ha
      rw [obtained k ops (step s (.create i j)) (if j = k then n + 1 else n) good width ((i, j) :: live) _ a2]
      · rfl
      · refine ⟨?_, ?_, ?_, C.good, C.width, C.fill⟩
        · intro p; simp only [step, List.mem_append, List.mem_singleton, List.mem_cons, C.live, List.not_mem_nil, or_false]; exact or_comm
        · simp only [step, List.map_append, List.map_cons, List.map_nil]
          refine List.nodup_append.2 ⟨C.ids, by simp, ?_⟩
          intro x hx y hy
          simp at hy; subst hy
          rintro rfl
          obtain ⟨p, hp, e⟩ := List.mem_map.1 hx
          exact a1 (List.mem_map.2 ⟨p, (C.live p).1 hp, e⟩)
        · simp only [step, List.count_append, C.regs]
          by_cases hj : j = k
          · subst hj; simp
          · simp [hj, List.count_cons]
    | destroy i =>
      have hlive : ∀ p, p ∈ s.live.filter (fun p => p.1 != i) ↔ p ∈ live.filter (fun p => p.1 ≠ i) := by
        intro p; simp [List.mem_filter, C.live]
      have hids : ((s.live.filter (fun p => p.1 != i)).map (·.1)).Nodup := (List.filter_sublist.map _).nodup C.ids
      cases hf : s.live.find? (fun p => p.1 == i) with
      | none =>
        have hno : ∀ j, (i, j) ∉ s.live := fun j hm => by rw [found_named C.ids hm] at hf; cases hf
        have hstep : step s (.destroy i) = s := by simp [step, hf]
        have hnk : ¬ (i, k) ∈ live := fun h => hno k ((C.live _).2 h)
        rw [hstep, obtained k ops s n good width (live.filter (fun p => p.1 ≠ i)) _ ha]
        · simp [obtains, hnk]
        · refine ⟨fun p => ?_, C.ids, C.regs, C.good, C.width, C.fill⟩
          rw [← hlive p, List.mem_filter]
          constructor
          · intro hp
            refine ⟨hp, ?_⟩
            simp only [bne_iff_ne, ne_eq]
            rintro rfl
            exact hno p.2 hp
          · exact fun hp => hp.1
      | some q =>
        obtain ⟨i', j⟩ := q
        have hi : i' = i := by simpa using List.find?_some hf
        subst hi
        have hm : (i', j) ∈ s.live := List.mem_of_find?_eq_some hf
        have hstep : step s (.destroy i') = { s with regs := s.regs.filter (fun x => x != j), live := s.live.filter (fun p => p.1 != i') } := by simp [step, hf]
        rw [hstep]
        by_cases hj : j = k
        · subst hj
          rw [obtained j ops { s with regs := s.regs.filter (fun x => x != j), live := s.live.filter (fun p => p.1 != i') } 0 good width (live.filter (fun p => p.1 ≠ i')) ⟨hlive, hids, count_own _ _, C.good, C.width, C.fill⟩ ha]
          simp [obtains, (C.live _).1 hm]
        · have hnk : ¬ (i', k) ∈ live := fun h => by
            have := found_named C.ids ((C.live _).2 h)
            rw [hf] at this; cases this; exact hj rfl
          rw [obtained k ops { s with regs := s.regs.filter (fun x => x != j), live := s.live.filter (fun p => p.1 != i') } n good width (live.filter (fun p => p.1 ≠ i')) ⟨hlive, hids, by rw [count_others _ hj]; exact C.regs, C.good, C.width, C.fill⟩ ha]
          simp [obtains, hnk]
    | write t =>
      obtain ⟨h1, h2, h3⟩ := upd_count (sputn t) k s.regs s
      rw [C.regs, times_sputn] at h3
      have C' : Tallied k n good width live (step s (.write t)) :=
        ⟨by rw [show (step s (.write t)).live = s.live from h2]; exact C.live, by rw [show (step s (.write t)).live = s.live from h2]; exact C.ids, by rw [show (step s (.write t)).regs = s.regs from h1]; exact C.regs,
          by rw [show (step s (.write t)).streams k = _ from h3]; exact C.good, by rw [show (step s (.write t)).streams k = _ from h3]; exact C.width, by rw [show (step s (.write t)).streams k = _ from h3]; exact C.fill⟩
      rw [obtained k ops _ n good width live C' ha, show (step s (.write t)).streams k = _ from h3]
      simp [obtains]
    | putc c =>
      obtain ⟨h1, h2, h3⟩ := upd_count (insertChar c) k s.regs s
      rw [C.regs] at h3
      have e1 : (step s (.putc c)).live = s.live := h2
      have e2 : (step s (.putc c)).regs = s.regs := h1
      have e3 : (step s (.putc c)).streams k = times (insertChar c) n (s.streams k) := h3
      simp only [obtains]
      by_cases hg : good = true
      · cases n with
        | zero =>
          rw [obtained k ops _ 0 good width live ⟨by rw [e1]; exact C.live, by rw [e1]; exact C.ids, by rw [e2]; exact C.regs, by rw [e3]; exact C.good, by rw [e3]; exact C.width, by rw [e3]; exact C.fill⟩ ha, e3]
          simp [times]
        | succ n =>
          have e4 : times (insertChar c) (n + 1) (s.streams k) = { s.streams k with text := (s.streams k).text ++ List.replicate (width - 1) b%' ' ++ List.replicate (n + 1) c, width := 0 } := by
            have : insertChar c (s.streams k) = { s.streams k with text := (s.streams k).text ++ List.replicate (width - 1) b%' ' ++ [c], width := 0 } := by simp [insertChar, C.good, hg, C.width, C.fill]
            rw [times, this, times_zero c n _ (by simp [C.good, hg]) rfl]
            simp [List.replicate_succ]
          rw [e4] at e3
          rw [obtained k ops _ (n + 1) good 0 live ⟨by rw [e1]; exact C.live, by rw [e1]; exact C.ids, by rw [e2]; exact C.regs, by rw [e3]; exact C.good, by rw [e3], by rw [e3]; exact C.fill⟩ ha, e3, if_pos ⟨hg, by simp⟩]
          simp
      · have hb : (s.streams k).good = false := by rw [C.good]; simpa using hg
        rw [times_bad c n _ hb] at e3
        rw [obtained k ops _ n good width live ⟨by rw [e1]; exact C.live, by rw [e1]; exact C.ids, by rw [e2]; exact C.regs, by rw [e3]; exact C.good, by rw [e3]; exact C.width, by rw [e3]; exact C.fill⟩ ha, e3, if_neg (fun h => hg h.1)]
    | own j t =>
      by_cases hk : k = j
      · subst hk
        rw [obtained k ops (step s (.own k t)) n good width live ⟨C.live, C.ids, C.regs, by simp [step, St.upd, sputn, C.good], by simp [step, St.upd, sputn, C.width], by simp [step, St.upd, sputn, C.fill]⟩ ha]
        simp [obtains, step, St.upd, sputn]
      · rw [obtained k ops (step s (.own j t)) n good width live ⟨C.live, C.ids, C.regs, by simp [step, St.upd, hk, C.good], by simp [step, St.upd, hk, C.width], by simp [step, St.upd, hk, C.fill]⟩ ha]
        simp [obtains, step, St.upd, hk, show ¬ j = k from fun e => hk e.symm]
    | tune j g w =>
      by_cases hk : k = j
      · subst hk
        rw [obtained k ops (step s (.tune k g w)) n g w live ⟨C.live, C.ids, C.regs, by simp [step, St.upd], by simp [step, St.upd], by simp [step, St.upd, C.fill]⟩ ha]
        simp [obtains, step, St.upd]
      · rw [obtained k ops (step s (.tune j g w)) n good width live ⟨C.live, C.ids, C.regs, by simp [step, St.upd, hk, C.good], by simp [step, St.upd, hk, C.width], by simp [step, St.upd, hk, C.fill]⟩ ha]
        simp [obtains, step, St.upd, hk, show ¬ j = k from fun e => hk e.symm]

/-- **C60** What every stream gets in all sequences of events, whether sessions share streams or not and whatever the state of the streams is: a text appears as many times as sessions have been created on the stream since one on it was last destroyed; a character
    too, the first time after the blanks that the field width requires, but not if the stream is not good. -/
theorem C60_exact (ops : List Op) (ha : Identified [] ops) (k : Nat) : ((run blank ops).streams k).text = obtains k 0 true 0 [] ops := by
  have := obtained k ops blank 0 true 0 [] ⟨by simp [blank], by simp [blank], by simp [blank], rfl, rfl, rfl⟩ ha
  rw [this]; rfl

/-- Two sessions on one stream, one of which is destroyed, and a third one. -/
example : Identified [] [.create 1 7, .create 2 7, .write bs!"a", .destroy 1, .write bs!"b", .create 3 7, .tune 7 true 3, .write bs!"c", .putc b%'d'] ∧
    obtains 7 0 true 0 [] [.create 1 7, .create 2 7, .write bs!"a", .destroy 1, .write bs!"b", .create 3 7, .tune 7 true 3, .write bs!"c", .putc b%'d'] = bs!"aac  d" := by
  refine ⟨?_, by decide⟩
  simp [Identified]

/-! ### C84 -/

open Verif.Storage

theorem first_line : ∀ (b cur : Str), cur ≠ [] → ∃ x l, getlines cur b = x :: l ∧ cur <+: x
  | [], cur, h => ⟨cur, [], by simp [getlines, h], List.prefix_refl _⟩
  | c :: b, cur, h => by
    simp only [getlines]
    split
    · exact ⟨cur, _, rfl, List.prefix_refl _⟩
    · obtain ⟨x, l, h1, h2⟩ := first_line b (cur ++ [c]) (by simp)
      exact ⟨x, l, h1, (List.prefix_append _ _).trans h2⟩

/-- What is read from the beginning of a file are the commands in it up to some place, where one may be cut. -/
theorem cut_lines : ∀ (b cur : Str) (n : Nat), CutPrefix (getlines cur b) (getlines cur (b.take n))
  | [], cur, n => by
    rw [List.take_nil]
    exact ⟨(getlines cur []).length, .inl (by simp)⟩
  | c :: b, cur, 0 => by
    simp only [List.take_zero, getlines]
    split
    · split
      · exact ⟨0, .inl rfl⟩
      · exact ⟨0, .inr ⟨cur, cur, by simp, List.prefix_refl _, rfl⟩⟩
    · obtain ⟨x, l, h1, h2⟩ := first_line b (cur ++ [c]) (by simp)
      rw [h1]
      split
      · exact ⟨0, .inl rfl⟩
      · exact ⟨0, .inr ⟨x, cur, rfl, (List.prefix_append _ _).trans h2, rfl⟩⟩
  | c :: b, cur, n + 1 => by
    simp only [List.take_succ_cons, getlines]
    split
    · obtain ⟨k, hk⟩ := cut_lines b [] n
      rcases hk with hk | ⟨d, e, h1, h2, h3⟩
      · exact ⟨k + 1, .inl (by simp [hk])⟩
      · exact ⟨k + 1, .inr ⟨d, e, by simpa using h1, h2, by simp [h3]⟩⟩
    · exact cut_lines b (cur ++ [c]) n

/-- **C84** (part) For all failures: what is read (`got`) is a beginning of the commands in the file, whose last one may be cut, and nothing if the file cannot be opened; what is in the file afterwards is a beginning of the most recent of `got` and the new commands,
    and all of it if writing does not fail; if the file cannot be opened for writing, it is unchanged. Missing: that nothing stored is lost or altered, which is refuted. -/
theorem C84_exact_partial (s : FileStore) (cmds : List Str) (h : NoNewline cmds) (fate : Fate) : ∃ got, CutPrefix s.Commands got ∧ (fate.read = none → got = []) ∧ (∀ n, fate.read = some n → (∀ b, s.file = some b → b.length ≤ n) → got = s.Commands) ∧
    (fate.write = none → s.storeIO cmds fate = s) ∧
    ∀ m, fate.write = some m → CutPrefix (lastN s.maxSize (got ++ cmds)) (s.storeIO cmds fate).Commands ∧
      (((lastN s.maxSize (got ++ cmds)).map (fun c => c.length + 1)).sum ≤ m → (s.storeIO cmds fate).Commands = lastN s.maxSize (got ++ cmds)) := by
  have hg : CutPrefix s.Commands (s.CommandsIO fate.read) ∧ NoNewline (s.CommandsIO fate.read) := by
    obtain ⟨size, file⟩ := s
    unfold FileStore.CommandsIO FileStore.Commands
    cases file with
    | none => exact ⟨⟨0, .inl rfl⟩, fun c hc => by cases hc⟩
    | some b =>
      cases fate.read with
      | none => exact ⟨⟨0, .inl rfl⟩, fun c hc => by cases hc⟩
      | some n => exact ⟨cut_lines b [] n, getlines_noNewline _ _ (by simp)⟩
  have hn : NoNewline (lastN s.maxSize (s.CommandsIO fate.read ++ cmds)) := by
    intro c hc
    rcases List.mem_append.1 (List.mem_of_mem_drop hc) with h1 | h1
    · exact hg.2 c h1
    · exact h c h1
  refine ⟨s.CommandsIO fate.read, hg.1, ?_, ?_, fun hw => by simp [FileStore.storeIO, hw], ?_⟩
  · intro hr; rw [hr]; unfold FileStore.CommandsIO; split <;> simp_all
  · intro n hr hb; rw [hr]; exact commandsIO_whole s n hb
  · intro m hw
    have e : (s.storeIO cmds fate).Commands = getlines [] (((lastN s.maxSize (s.CommandsIO fate.read ++ cmds)).flatMap (fun line => line ++ [b%'\n'])).take m) := by
      simp only [FileStore.storeIO, hw, FileStore.Commands, appendBounded_eq]
    rw [e]
    refine ⟨cut_render _ hn m, fun hm => ?_⟩
    rw [List.take_of_length_le]
    · have := getlines_render _ [] hn
      simpa [getlines] using this
    · rw [List.length_flatMap]; simpa using hm

/-- **C84 refuted** Whatever is in the file: if it cannot be opened for reading, only the new commands are in it afterwards. -/
theorem C84_unread_refuted (s : FileStore) (cmds : List Str) (h : NoNewline cmds) (m : Nat) (hm : ((lastN s.maxSize cmds).map (fun c => c.length + 1)).sum ≤ m) : (s.storeIO cmds ⟨none, some m⟩).Commands = lastN s.maxSize cmds := by
  obtain ⟨got, _, h1, _, _, h2⟩ := C84_exact_partial s cmds h ⟨none, some m⟩
  have := h1 rfl
  subst this
  exact (h2 m rfl).2 hm

/-- **C84 refuted** Whatever is in the file and however much of it is read: if the disk is full, nothing is in it afterwards. -/
theorem C84_full_refuted (s : FileStore) (cmds : List Str) (read : Option Nat) : (s.storeIO cmds ⟨read, some 0⟩).Commands = [] := by
  simp [FileStore.storeIO, FileStore.Commands, getlines]

/-- Reading fails in the second of three commands. -/
example : (FileStore.mk 10 (some bs!"ab\ncd\nef\n")).storeIO [bs!"x"] ⟨some 4, some 100⟩ = ⟨10, some bs!"ab\nc\nx\n"⟩ := by rfl

/-- **C85 refuted** Whatever two programs store, and whatever is in the file: if both have read it before the first writes it, the commands of the first are lost. -/
theorem C85_lost_refuted (size : Nat) (file : Option Str) (a b : List Str) (hb : NoNewline b) : ∃ file', shareRun size [0, 1, 0, 1] (file, [.idle a, .idle b]) = some (file', [.done, .done]) ∧
    FileStore.Commands ⟨size, file'⟩ = lastN size (FileStore.Commands ⟨size, file⟩ ++ b) := by
  have := store_commands ⟨size, file⟩ b hb
  exact ⟨_, rfl, this⟩

example : FileStore.Commands ⟨3, some bs!"x\n"⟩ = [bs!"x"] ∧ lastN 3 ([bs!"x"] ++ [bs!"b"]) = [bs!"x", bs!"b"] := ⟨by rfl, by rfl⟩

end Verif.Props
