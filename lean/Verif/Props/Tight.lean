import Verif.Props.Storage
import Verif.Props.FromString
import Verif.Props.AsyncSession
import Verif.Props.OutStream
import Verif.Props.WinKeyboard

set_option linter.unusedSimpArgs false

/-!
# Details of several properties that wrong programs have shown to be open
-/

namespace Verif.Props
open Spec
open FromString (fromString Value)

variable {σ τ : Type}

/-! ### C04, C05: the ranges of the types, in numbers -/

/-- Number of bits of a type. -/
def bits : FromString.Width → Nat
  | .w8 => 8 | .w16 => 16 | .w32 => 32 | .w64 => 64

theorem card_bits (w : FromString.Width) : w.card = 2 ^ bits w := by cases w <;> decide
theorem half_bits (w : FromString.Width) : w.card / 2 = 2 ^ (bits w - 1) := by cases w <;> decide

/-- **C04** An unsigned parameter of `n` bits accepts the numbers from 0 to 2^n - 1 and delivers them. -/
theorem C04_range (p : Platform) (w : FromString.Width) (s : Str) (v : Value) :
    fromString p (.unsigned w) s = .ok v ↔ ∃ n : Nat, v = .int n ∧ Number.SpellsNat s n ∧ n < 2 ^ bits w := by
  rw [C04_unsigned_exact, card_bits]

/-- **C05** (partial) A signed parameter of `n` bits accepts the numbers from -2^(n-1) to 2^(n-1) - 1 and delivers them; with the exceptions of `C05_signed_exact_partial`. -/
theorem C05_range_partial (p : Platform) (w : FromString.Width) (s : Str) (v : Value) (hp : p.strictOverflow = false ∨ (w = .w8 ∨ w = .w16) ∨ s.head? ≠ some b%'-') :
    fromString p (.signed w) s = .ok v ↔ ∃ i : Int, v = .int i ∧ Number.SpellsInt s i ∧ -((2 ^ (bits w - 1) : Nat) : Int) ≤ i ∧ i < ((2 ^ (bits w - 1) : Nat) : Int) := by
  rw [C05_signed_exact_partial p w s v hp, half_bits]

example : fromString plat (.unsigned .w16) bs!"65535" = .ok (.int 65535) ∧ fromString plat (.unsigned .w16) bs!"65536" = .error .bad ∧ 65535 < 2 ^ bits .w16 := ⟨rfl, rfl, by decide⟩
example : fromString plat (.signed .w16) bs!"-32768" = .ok (.int (-32768)) ∧ fromString plat (.signed .w16) bs!"32768" = .error .bad := ⟨rfl, rfl⟩

/-! ### C32: the states of the file, all of them -/

/-- **C32** While the history is saved the file is as before, or contains a beginning of the new contents, empty and complete ones included; and nothing else is possible. -/
theorem C32_states (s : Storage.FileStore) (cmds : List Str) (f : Option Str) :
    f ∈ s.storeStates cmds ↔ f = s.file ∨ ∃ written rest, f = some written ∧ (s.store cmds).file = some (written ++ rest) := by
  simp only [Storage.FileStore.storeStates, Storage.FileStore.store, List.mem_cons, List.mem_map, List.mem_range]
  constructor
  · rintro (h | ⟨n, _, rfl⟩)
    · exact .inl h
    · exact .inr ⟨_, _, rfl, by rw [List.take_append_drop]⟩
  · rintro (h | ⟨a, b, rfl, h⟩)
    · exact .inl h
    · have h : s.newContents cmds = a ++ b := Option.some.inj h
      refine .inr ⟨a.length, by rw [h, List.length_append]; omega, ?_⟩
      rw [h, List.take_left]

example : some bs!"b\nc\n" ∈ (Storage.FileStore.mk 2 (some bs!"a\nb\n")).storeStates [bs!"c"] := by decide

/-- **C32, stronger form, is false of the code** whatever is stored: there always is a moment while the history is saved in which the file is empty, so that a crash loses every command stored before. -/
theorem C32_lost_refuted (s : Storage.FileStore) (cmds : List Str) : some [] ∈ s.storeStates cmds ∧ (Storage.FileStore.mk s.maxSize (some [])).Commands = [] :=
  ⟨(C32_states s cmds _).2 (.inr ⟨[], s.newContents cmds, rfl, rfl⟩), rfl⟩

example : (Storage.FileStore.mk 5 (some bs!"a\nb\n")).Commands = [bs!"a", bs!"b"] ∧ some [] ∈ (Storage.FileStore.mk 5 (some bs!"a\nb\n")).storeStates [bs!"c"] :=
  ⟨by rfl, (C32_lost_refuted _ _).1⟩

/-! ### C55: the state of the stream -/

/-- **C55** What `getline` leaves of the stream: if it was not good, `failbit`, and nothing is taken; if there is a newline, the stream stays good, with what follows the newline; otherwise the rest is taken and the stream is at
    its end, or broken, and has failed exactly if there was nothing. -/
theorem C55_getline (i : FileSession.In) :
    (i.good = false → FileSession.getline i = (⟨i.data, i.broken, i.eof, true, i.bad⟩, [])) ∧
    (i.good = true → ∀ line rest, b%'\n' ∉ line → i.data = line ++ b%'\n' :: rest → FileSession.getline i = (⟨rest, i.broken, false, false, false⟩, line)) ∧
    (i.good = true → b%'\n' ∉ i.data → FileSession.getline i = (⟨[], i.broken, !i.broken, i.data.isEmpty, i.broken⟩, i.data)) := by
  obtain ⟨d, br, e, f, b⟩ := i
  have hg : (FileSession.In.mk d br e f b).good = true → e = false ∧ f = false ∧ b = false := by
    simp [FileSession.In.good]
    intro a b c
    exact ⟨a, b, c⟩
  refine ⟨fun h => ?_, fun h line rest hn hd => ?_, fun h hn => ?_⟩
  · simp [FileSession.getline, h]
  · obtain ⟨rfl, rfl, rfl⟩ := hg h
    have hc : FileSession.cut d = some (line, rest) := by
      have hd' : d = line ++ b%'\n' :: rest := hd
      rw [hd']
      clear hd' hd h hg
      induction line with
      | nil => simp [FileSession.cut]
      | cons c line ih =>
        simp only [List.mem_cons, not_or] at hn
        simp only [List.cons_append, FileSession.cut]
        rw [if_neg (fun hh => hn.1 hh.symm), ih hn.2]
        rfl
    simp [FileSession.getline, FileSession.In.good, hc]
  · obtain ⟨rfl, rfl, rfl⟩ := hg h
    have hc : FileSession.cut d = none := cut_none_iff.2 hn
    cases br <;> simp [FileSession.getline, FileSession.In.good, hc]

example : FileSession.getline (.of bs!"a\nb") = (.of bs!"b", bs!"a") ∧ FileSession.getline (.of bs!"b") = (⟨[], false, true, false, false⟩, bs!"b") ∧ FileSession.getline (.of []) = (⟨[], false, true, true, false⟩, []) := by decide

/-! ### C72: the history of an asynchronous session -/

/-- **C72** The history of an asynchronous session has room for one line: at first it contains the newest line of the storage, if any, and then the line entered last and nothing else. -/
theorem C72_one_line (A : App σ τ) (w : World σ τ) (io : Io) (s0 : Async.St σ τ) (h0 : Async.create A w io = .ok s0) :
    s0.w.hist.buffer = (A.stored w.storage).getLast?.toList ∧ ∀ line h, History.newCommand s0.w.hist line = .ok h → h.buffer = [line] := by
  have hh : s0.w.hist = History.loadCommands (History.init 1) (A.stored w.storage) := by
    unfold Async.create Async.read prompt at h0
    split at h0
    · cases h0
    · rename_i w1 hp
      cases h0
      split at hp
      · cases hp; rfl
      · split at hp
        · cases hp; rfl
        · cases hp
  have gen : ∀ (cmds : List Str) (h : History.History), h.maxSize = 1 → h.mode = .inserting → h.buffer.length ≤ 1 →
      (History.loadCommands h cmds).maxSize = 1 ∧ (History.loadCommands h cmds).mode = .inserting ∧ (History.loadCommands h cmds).buffer.length ≤ 1 ∧
        (History.loadCommands h cmds).buffer = (h.buffer ++ cmds).getLast?.toList := by
    intro cmds
    induction cmds with
    | nil =>
      intro h h1 h2 h3
      refine ⟨h1, h2, h3, ?_⟩
      show h.buffer = _
      rw [List.append_nil]
      match h.buffer, h3 with
      | [], _ => rfl
      | [a], _ => rfl
    | cons c cmds ih =>
      intro h h1 h2 h3
      have hi : (History.insert h c).buffer = [c] := by rw [History.insert_buffer h (by omega)]; simp [h1]
      have hm : (History.insert h c).maxSize = 1 ∧ (History.insert h c).mode = .inserting := by
        simp only [History.insert]
        split <;> exact ⟨h1, h2⟩
      obtain ⟨i1, i2, i3, i4⟩ := ih (History.insert h c) hm.1 hm.2 (by rw [hi]; simp)
      refine ⟨i1, i2, i3, ?_⟩
      show (History.loadCommands (History.insert h c) cmds).buffer = _
      rw [i4, hi]
      congr 1
      cases cmds <;> simp [List.getLast?_append, List.getLast?_cons]
  obtain ⟨g1, g2, g3, g4⟩ := gen (A.stored w.storage) (History.init 1) rfl rfl (by simp [History.init])
  rw [← hh] at g1 g2 g3 g4
  refine ⟨by rw [g4]; rfl, fun line h hn => ?_⟩
  unfold History.newCommand at hn
  simp only [g2] at hn
  split at hn
  · cases hn
    rw [History.insert_buffer _ (by show s0.w.hist.buffer.length ≤ s0.w.hist.maxSize; omega)]
    show List.take s0.w.hist.maxSize _ = _
    simp [g1]
  · rename_i hne
    cases hn
    simp only [ne_eq, Classical.not_not] at hne
    match hb : s0.w.hist.buffer, g3 with
    | [], _ => rw [hb] at hne; simp at hne
    | [a], _ => rw [hb] at hne; simp at hne; first | rw [hne] | rw [← hne]

example : (Async.create Sample.app { Sample.world with storage := [bs!"a", bs!"b"] } Sample.world.io).map (fun s => s.w.hist.buffer) = .ok [bs!"b"] := by rfl

/-! ### C60: a character and the width of the field -/

/-- **C60** A character that is inserted in a good stream is preceded by as many fill characters as the width of the field requires, which is then reset; on a stream that is not good nothing happens. -/
theorem C60_character (c : Byte) (o : OutStream.Stream) :
    (o.good = true → ∃ pad, (OutStream.insertChar c o).text = o.text ++ pad ++ [c] ∧ (∀ x ∈ pad, x = o.fill) ∧ (pad ++ [c]).length = max o.width 1 ∧ (OutStream.insertChar c o).width = 0) ∧
    (o.good = false → OutStream.insertChar c o = o) := by
  constructor
  · intro h
    refine ⟨List.replicate (o.width - 1) o.fill, by simp [OutStream.insertChar, h], fun x hx => List.eq_of_mem_replicate hx, by simp; omega, by simp [OutStream.insertChar, h]⟩
  · intro h
    simp [OutStream.insertChar, h]

/-! ### C82: the character 224 -/

/-- **C82** (refuted, in general) Whenever the keyboard is idle and the character 224 is typed, and then a key with one code, both are gone, and one key is posted, which is the one that has the second code after 224. -/
theorem C82_refuted_lost (s : WinKeyboard.Kb) (hw : s.reader = .wait) (hc : s.carry = none) (hr : s.records = []) (hs : s.stopped = false) (c : Byte) :
    WinKeyboard.steps s [.arrive (.press 224 none), .wake, .getch, .arrive (.press c none), .getch, .post] =
      some { s with posted := s.posted ++ [if c = 72 then .up else if c = 80 then .down else if c = 75 then .left else if c = 77 then .right else if c = 71 then .home else if c = 79 then .end else if c = 83 then .canc else .ignored] } := by
  obtain ⟨r, ca, re, st, po⟩ := s
  cases hw; cases hc; cases hr; cases hs
  rfl

/-- The letter `H` (72) becomes the key "up". -/
example : ∃ s, WinKeyboard.steps WinKeyboard.init [.arrive (.press 224 none), .wake, .getch, .arrive (.press 72 none), .getch, .post] = some s ∧ s.posted = [.up] ∧ WinTyped [.ascii 224, .ascii 72] [.press 224 none, .press 72 none] :=
  ⟨_, rfl, rfl, .key (.ascii (by decide)) (.key (.ascii (by decide)) .nil)⟩

end Verif.Props
