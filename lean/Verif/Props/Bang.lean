import Verif.Proofs.Bang
import Verif.Props.Menus

set_option linter.unusedSimpArgs false

/-!
# Properties C25, C26, C27: re-execution of history entries with `! n`; C28 for whole sessions
-/

namespace Verif.Props
open Spec
open History (WF listing)

variable {σ τ : Type} (A : App σ τ)

/-! ### C25 -/

theorem listing_take {h h2 : History.History} {k : Nat} (hb : h2.buffer = h.buffer.take k) (hn : h2.idOfOldest + h2.buffer.length = h.idOfOldest + h.buffer.length) :
    listing h2 = lastN k (listing h) := by
  unfold listing lastN
  rw [length_number, drop_number, hb]
  have h1 : (h.buffer.take k).reverse = h.buffer.reverse.drop (h.buffer.length - k) := by rw [List.reverse_take]
  rw [h1]
  simp only [List.length_reverse]
  congr 1
  rw [hb, List.length_take] at hn
  omega

/-- What a line `! n` does to the history before anything is executed: `n` is looked up in the entries (without the oldest one, if the history was full). -/
theorem bang_start {w : World σ τ} (hw : WF w.hist) (hmode : w.hist.mode = .inserting) (hm : 1 ≤ w.hist.maxSize) {line : Str} (hnew : w.hist.buffer.head? ≠ some line) :
    ∃ h1 h2, History.newCommand w.hist line = .ok h1 ∧ History.forgetLatest h1 = .ok h2 ∧ WF h2 ∧ h2.mode = .inserting ∧ h2.maxSize = w.hist.maxSize ∧
      h2.commands = w.hist.commands + 1 ∧ listing h2 = lastN (w.hist.maxSize - 1) (listing w.hist) ∧
      h2.idOfOldest + h2.buffer.length = w.hist.idOfOldest + w.hist.buffer.length := by
  obtain ⟨h1, a1, a2, a3, a4, a5, a6⟩ := History.newCommand_ok hw line
  have hent := History.entries_inserting hmode
  cases hf : History.forgetLatest h1 with
  | error f =>
    unfold History.forgetLatest at hf
    split at hf
    · rename_i hb; exact absurd hb (a6 hm)
    · cases hf
  | ok h2 =>
    obtain ⟨b1, b2, b3, b4, b5, b6⟩ := History.bang_forget hw a1 (by rw [hent]; exact hnew) hf
    unfold History.base at b6
    rw [hent, History.entries_inserting b2] at b6
    rw [hent] at b5
    exact ⟨h1, h2, a1, hf, b1, b2, b3, b4, listing_take b5 b6, b6⟩

/-- **C25** (partial) If `n` is the identifier of an entry `c` of the listing, then `! n` does exactly what the line `c` does, in a history that does not contain `! n` (and has
    counted one more command).
    Missing: the oldest entry of a full history, and a newest entry that is the same `! n` line (refuted below). -/
theorem C25_reexecutes_partial (hx : ∀ f s l e, A.onException = some f → (f s l e).exn = none) (fuel : Nat) (w : World σ τ) (line arg : Str) (n : Nat) (c : Str)
    (hl : Lex.Line line [bs!"!", arg]) (hn : Number.SpellsNat arg n) (hn32 : n < 2 ^ 32) (hw : WF w.hist) (hmode : w.hist.mode = .inserting)
    (hc : (n, c) ∈ listing w.hist) (hroom : (listing w.hist).length < w.hist.maxSize ∨ (listing w.hist).head? ≠ some (n, c))
    (hnew : (listing w.hist).getLast?.map (·.2) ≠ some line) :
    ∃ h', listing h' = lastN (w.hist.maxSize - 1) (listing w.hist) ∧ ((listing w.hist).length < w.hist.maxSize → listing h' = listing w.hist) ∧
      WF h' ∧ h'.mode = .inserting ∧ h'.maxSize = w.hist.maxSize ∧ h'.commands = w.hist.commands + 1 ∧
      feed A (fuel + 1) line w = feed A fuel c { w with hist := h', log := w.log ++ [.builtin (.bang n)] } := by
  have hlen : (listing w.hist).length = w.hist.buffer.length := by simp [listing, length_number]
  have hpos : 1 ≤ w.hist.maxSize := by
    have := hw.bound
    have : 1 ≤ (listing w.hist).length := by
      cases h : listing w.hist with
      | nil => rw [h] at hc; cases hc
      | cons => simp
    omega
  have hnew' : w.hist.buffer.head? ≠ some line := by
    intro he
    apply hnew
    rw [← List.getLast?_map]
    simp only [listing, map_snd_number, List.getLast?_reverse]
    exact he
  obtain ⟨h1, h2, a1, a2, a3, a4, a5, a6, a7, a8⟩ := bang_start hw hmode hpos hnew'
  have hmem : (n, c) ∈ listing h2 := by
    rw [a7]
    rcases hroom with hr | hr
    · rw [lastN_of_le (by omega)]; exact hc
    · by_cases hlt : (listing w.hist).length < w.hist.maxSize
      · rw [lastN_of_le (by omega)]; exact hc
      · have hfull : (listing w.hist).length - (w.hist.maxSize - 1) = 1 := by have := hw.bound; omega
        unfold lastN
        rw [hfull]
        cases h : listing w.hist with
        | nil => rw [h] at hc; cases hc
        | cons x xs =>
          rw [h] at hc hr
          simp only [List.head?_cons, ne_eq, Option.some.injEq] at hr
          rcases List.mem_cons.1 hc with he | he
          · exact absurd he.symm hr
          · simpa using he
  have hat : History.at h2 n = .ok (some c) := by
    refine (History.at_listing h2 ?_ n c).2 hmem
    have : 1 ≤ w.hist.buffer.length := by
      cases h : w.hist.buffer with
      | nil => rw [listing, h] at hc; cases hc
      | cons => simp
    omega
  refine ⟨h2, a7, ?_, a3, a4, a5, a6, ?_⟩
  · intro hlt; rw [a7, lastN_of_le (by omega)]
  · rw [feed_eq A hl (by simp), a1]
    simp only [body, scanGlobal_bang A (feed A fuel) (w.entered h1) hn hn32, bangPart]
    have hf : History.forgetLatest (w.entered h1).hist = .ok h2 := a2
    rw [hf]
    simp only [hat]
    have hw1 : ({ (w.entered h1).note (.builtin (.bang n)) with hist := h2 } : World σ τ) = { w with hist := h2, log := w.log ++ [.builtin (.bang n)] } := rfl
    rw [hw1]
    cases hfd : feed A fuel c { w with hist := h2, log := w.log ++ [.builtin (.bang n)] } with
    | error f => rfl
    | ok v =>
      obtain ⟨w2, x⟩ := v
      cases x with
      | none => rfl
      | some e =>
        obtain ⟨f, s, l, e', h1, h2⟩ := C18_no_exception_escapes A fuel c _ _ e hfd
        rw [hx f s l e' h1] at h2; cases h2

/-- A session in which `go`, `any x` and `any y` were entered. -/
def typed : World (List Nat) (List Str) :=
  { Sample.world with hist := { maxSize := 5, buffer := [bs!"any y", bs!"any x", bs!"go"], current := 0, commands := 3, mode := .inserting, idOfOldest := 0 } }

example : (feed Sample.tame 2 bs!"! 1" typed).map (fun r => (calls r.1.log, listing r.1.hist)) =
    .ok ([(Sample.any, [.str bs!"x"])], [(0, bs!"go"), (1, bs!"any x"), (2, bs!"any y"), (3, bs!"any x")]) := by rfl

/-- A number that is not among the entries without the oldest one of a full history runs nothing and is reported. -/
theorem bang_missed (fuel : Nat) (w : World σ τ) (line arg : Str) (n : Nat)
    (hl : Lex.Line line [bs!"!", arg]) (hn : Number.SpellsNat arg n) (hn32 : n < 2 ^ 32) (hw : WF w.hist) (hmode : w.hist.mode = .inserting)
    (hne : listing w.hist ≠ []) (hc : ∀ c, (n, c) ∉ lastN (w.hist.maxSize - 1) (listing w.hist)) (hnew : (listing w.hist).getLast?.map (·.2) ≠ some line) :
    ∃ w' x h', feed A (fuel + 1) line w = .ok (w', x) ∧ calls w'.log = calls w.log ∧
      w'.log = w.log ++ [.builtin (.bang n), .reported line (.std bs!"Index not found in history")] ∧ w'.current = w.current ∧ w'.hist = h' ∧
      listing h' = lastN (w.hist.maxSize - 1) (listing w.hist) ∧
      (A.onException = none → x = none ∧ w'.io.out = w.io.out ++ bs!"Index not found in history\n") := by
  have hlen : (listing w.hist).length = w.hist.buffer.length := by simp [listing, length_number]
  have hpos' : 1 ≤ w.hist.buffer.length := by
    rw [← hlen]
    cases h : listing w.hist with
    | nil => exact absurd h hne
    | cons => simp
  have hpos : 1 ≤ w.hist.maxSize := by have := hw.bound; omega
  have hnew' : w.hist.buffer.head? ≠ some line := by
    intro he
    apply hnew
    rw [← List.getLast?_map]
    simp only [listing, map_snd_number, List.getLast?_reverse]
    exact he
  obtain ⟨h1, h2, a1, a2, a3, a4, a5, a6, a7, a8⟩ := bang_start hw hmode hpos hnew'
  have hat : History.at h2 n = .ok none := by
    refine (History.at_none h2 (by omega) n).2 ?_
    intro c hm
    rw [a7] at hm
    exact hc c hm
  have key : feed A (fuel + 1) line w =
      .ok (reportException A line (.std bs!"Index not found in history") { w with hist := h2, log := w.log ++ [.builtin (.bang n)] }) := by
    rw [feed_eq A hl (by simp), a1]
    simp only [body, scanGlobal_bang A (feed A fuel) (w.entered h1) hn hn32, bangPart]
    have hf : History.forgetLatest (w.entered h1).hist = .ok h2 := a2
    rw [hf]
    simp only [hat]
    rfl
  have hlog : (reportException A line (.std bs!"Index not found in history") { w with hist := h2, log := w.log ++ [.builtin (.bang n)] }).1.log =
      w.log ++ [.builtin (.bang n), .reported line (.std bs!"Index not found in history")] := by
    unfold reportException
    simp only
    split
    · rw [(effect_same _ _).2.1]; simp [World.note]
    · simp [World.note, World.put]
  refine ⟨(reportException A line (.std bs!"Index not found in history") { w with hist := h2, log := w.log ++ [.builtin (.bang n)] }).1, _, h2, key, ?_, hlog, ?_, ?_, a7, ?_⟩
  · rw [hlog]; simp [calls]
  · unfold reportException
    simp only
    split
    · rw [(effect_same _ _).1.current]; rfl
    · rfl
  · unfold reportException
    simp only
    split
    · rw [(effect_same _ _).1.hist]; rfl
    · rfl
  · intro hnone
    simp only [reportException, hnone]
    exact ⟨trivial, by simp [World.put, World.note, Io.put, Exn.what]⟩

/-- **C25** (partial) Any other `n` runs nothing and is reported: the exception "Index not found in history" is handed to the exception handler, or written. -/
theorem C25_not_listed_partial (fuel : Nat) (w : World σ τ) (line arg : Str) (n : Nat)
    (hl : Lex.Line line [bs!"!", arg]) (hn : Number.SpellsNat arg n) (hn32 : n < 2 ^ 32) (hw : WF w.hist) (hmode : w.hist.mode = .inserting)
    (hne : listing w.hist ≠ []) (hc : ∀ c, (n, c) ∉ listing w.hist) (hnew : (listing w.hist).getLast?.map (·.2) ≠ some line) :
    ∃ w' x h', feed A (fuel + 1) line w = .ok (w', x) ∧ calls w'.log = calls w.log ∧
      w'.log = w.log ++ [.builtin (.bang n), .reported line (.std bs!"Index not found in history")] ∧ w'.current = w.current ∧ w'.hist = h' ∧
      listing h' = lastN (w.hist.maxSize - 1) (listing w.hist) ∧
      (A.onException = none → x = none ∧ w'.io.out = w.io.out ++ bs!"Index not found in history\n") := by
  exact bang_missed A fuel w line arg n hl hn hn32 hw hmode hne (fun c h => hc c (mem_lastN h)) hnew

example : (feed Sample.tame 2 bs!"! 7" typed).map (fun r => (calls r.1.log, r.1.io.out, listing r.1.hist)) =
    .ok ([], bs!"Index not found in history\n", [(0, bs!"go"), (1, bs!"any x"), (2, bs!"any y")]) := by rfl

/-- **C25 is false of the code**, in general: in a full history `! n`, with the number `n` of the oldest entry, runs nothing and is reported as a number that is not in the history, although it is listed; and the entry is gone. -/
theorem C25_oldest_refuted (fuel : Nat) (w : World σ τ) (line arg : Str) (n : Nat) (c : Str)
    (hl : Lex.Line line [bs!"!", arg]) (hn : Number.SpellsNat arg n) (hn32 : n < 2 ^ 32) (hw : WF w.hist) (hmode : w.hist.mode = .inserting)
    (hfull : (listing w.hist).length = w.hist.maxSize) (hc : (listing w.hist).head? = some (n, c)) (hnew : (listing w.hist).getLast?.map (·.2) ≠ some line) :
    ∃ w' x, feed A (fuel + 1) line w = .ok (w', x) ∧ calls w'.log = calls w.log ∧
      w'.log = w.log ++ [.builtin (.bang n), .reported line (.std bs!"Index not found in history")] ∧ w'.current = w.current ∧
      listing w'.hist = (listing w.hist).tail ∧
      (A.onException = none → x = none ∧ w'.io.out = w.io.out ++ bs!"Index not found in history\n") := by
  have htl : lastN (w.hist.maxSize - 1) (listing w.hist) = (listing w.hist).tail := by
    cases h : listing w.hist with
    | nil => rw [h] at hc; cases hc
    | cons a l =>
      rw [h] at hfull
      simp only [List.length_cons] at hfull
      rw [← hfull]
      simp [lastN]
  have hmiss : ∀ c, (n, c) ∉ lastN (w.hist.maxSize - 1) (listing w.hist) := by
    intro d hd
    rw [htl] at hd
    unfold listing at hc hd
    cases hb : w.hist.buffer.reverse with
    | nil => rw [hb] at hc; cases hc
    | cons a l =>
      rw [hb] at hc hd
      simp only [HistoryList.number, List.head?_cons, Option.some.injEq, Prod.mk.injEq, List.tail_cons] at hc hd
      have hge : ∀ (l : List Str) (m : Nat) (q : Nat × Str), q ∈ HistoryList.number m l → m ≤ q.1 := by
        intro l
        induction l with
        | nil => intro m q hq; cases hq
        | cons b l ih =>
          intro m q hq
          simp only [HistoryList.number, List.mem_cons] at hq
          rcases hq with rfl | hq
          · exact Nat.le_refl _
          · have := ih _ _ hq; omega
      have := hge _ _ _ hd
      simp only at this
      omega
  obtain ⟨w', x, h', b1, b2, b3, b4, b5, b6, b7⟩ := bang_missed A fuel w line arg n hl hn hn32 hw hmode (by intro h; rw [h] at hc; cases hc) hmiss hnew
  exact ⟨w', x, b1, b2, b3, b4, by rw [b5, b6, htl], b7⟩

example : ∃ w' x, feed Sample.tame 5 bs!"! 0" { Sample.world with hist := ⟨2, [bs!"any y", bs!"any z"], 0, 3, .inserting, 0⟩ } = .ok (w', x) ∧ listing w'.hist = [(1, bs!"any y")] := by
  obtain ⟨w', x, h1, _, _, _, h2, _⟩ := C25_oldest_refuted Sample.tame 4 { Sample.world with hist := ⟨2, [bs!"any y", bs!"any z"], 0, 3, .inserting, 0⟩ } bs!"! 0" bs!"0" 0 bs!"any z"
    ((split_iff _ _).1 (by rfl)) ⟨bs!"0", .inl rfl, ⟨by decide, by unfold Number.Digit; decide⟩, by decide⟩ (by decide) ⟨by decide, by decide, by decide⟩ rfl rfl rfl (by decide)
  exact ⟨w', x, h1, h2⟩

/-- **C25** is false for the oldest entry of a full history: entering `! n` drops this entry before it is looked up. -/
theorem C25_full_history_refuted : ∃ w : World (List Nat) (List Str), WF w.hist ∧ w.hist.mode = .inserting ∧
    listing w.hist = [(0, bs!"any z"), (1, bs!"any x"), (2, bs!"any y")] ∧
    ∃ w', feed Sample.tame 5 bs!"! 0" w = .ok (w', none) ∧ calls w'.log = [] ∧ w'.io.out = bs!"Index not found in history\n" ∧
      listing w'.hist = [(1, bs!"any x"), (2, bs!"any y")] :=
  ⟨{ Sample.world with hist := { maxSize := 3, buffer := [bs!"any y", bs!"any x", bs!"any z"], current := 0, commands := 3, mode := .inserting, idOfOldest := 0 } },
    ⟨by decide, by decide, by decide⟩, rfl, rfl, _, rfl, rfl, rfl, rfl⟩

/-- **C25** If the newest entry is the same `! n` line (from a history file, for instance), it is the older entry that gets dropped. -/
theorem C25_repeated_refuted : ∃ w : World (List Nat) (List Str), WF w.hist ∧ w.hist.mode = .inserting ∧
    listing w.hist = [(0, bs!"any x"), (1, bs!"! 0")] ∧
    ∃ w', feed Sample.tame 5 bs!"! 0" w = .ok (w', none) ∧ listing w'.hist = [(0, bs!"any x")] :=
  ⟨{ Sample.world with hist := { maxSize := 5, buffer := [bs!"! 0", bs!"any x"], current := 0, commands := 0, mode := .inserting, idOfOldest := 0 } },
    ⟨by decide, by decide, by decide⟩, rfl, rfl, _, rfl, rfl⟩

/-! ### C26, C27 -/

/-- A history in which something has been recorded, but no `! n` line. -/
structure Healthy (h : History.History) : Prop where
  wf : WF h
  size : 1 ≤ h.maxSize
  free : History.BangFree h
  some : 1 ≤ History.base h

/-- **C27** (partial) Feeding a line terminates, with a recursion depth of at most two, if no entry of the history is itself a `! n` line (whatever the line fed is).
    Missing: histories with such entries, for which it is refuted below. -/
theorem C27_terminates_partial (fuel : Nat) (line : Str) (w : World σ τ) (hw : WF w.hist) (hf : History.BangFree w.hist) :
    feed A (fuel + 2) line w ≠ .error .stackOverflow := by
  intro h
  obtain ⟨toks, hl⟩ := line_exists line
  by_cases ht : toks = []
  · subst ht; rw [feed_blank A hl] at h; cases h
  · rcases feed_level_fault A (fuel + 1) hl ht w _ h with h | h | ⟨h1, a1, h | ⟨n, hb, h | ⟨h2, a2, h | ⟨c, a3, h⟩⟩⟩⟩
    · exact h.1 rfl
    · cases newCommand_fault h
    · cases getCommands_fault h
    · cases forget_fault h
    · cases at_fault h
    · have hc : c ∈ entriesNewestFirst w.hist := by
        have hne : (entriesNewestFirst w.hist).head? ≠ some line := fun he => hf line (List.mem_of_mem_head? (by rw [he]; rfl)) ⟨toks, n, hl, hb⟩
        have := (History.bang_forget hw a1 hne a2).2.2.2.2.1
        have hm := History.at_mem a3
        rw [this] at hm
        exact List.mem_of_mem_take hm
      obtain ⟨toks', hl'⟩ := line_exists c
      by_cases ht' : toks' = []
      · subst ht'; rw [feed_blank A hl'] at h; cases h
      · rcases feed_level_fault A fuel hl' ht' _ _ h with h | h | ⟨h1, _, h | ⟨m, hb', _⟩⟩
        · exact h.1 rfl
        · cases newCommand_fault h
        · cases getCommands_fault h
        · exact hf c hc ⟨toks', m, hl', hb'⟩

/-- The numbers of the entries, as `history` would show them: every `! m` entry refers to an older entry (or to none). -/
def Ranked (h : History.History) : Prop :=
  ∀ j c toks m, (entriesNewestFirst h)[j]? = some c → Lex.Line c toks → GlobalLine toks (.bang m) → m + 1 + j < History.base h

/-- When the line entered is the newest entry, forgetting it forgets that entry. -/
theorem bang_same_head {h h1 h2 : History.History} (hw : WF h) {line : Str} (hne : (entriesNewestFirst h).head? = some line) (hn : History.newCommand h line = .ok h1)
    (hf : History.forgetLatest h1 = .ok h2) : History.base h2 + 1 = History.base h := by
  obtain ⟨_, a, b1, b2, b3, _, _⟩ := History.newCommand_ok hw line
  rw [a] at hn; cases hn
  obtain ⟨c1, c2, c3⟩ := History.forget_wf b1 b3 hf
  obtain ⟨e1, _⟩ := C24_repetition_not_stored h h1 line hne a
  have hid : h1.idOfOldest = h.idOfOldest := by
    unfold History.newCommand at a
    cases hm : h.mode with
    | inserting =>
      rw [History.entries_inserting hm] at hne
      simp only [hm] at a
      rw [if_neg (by simpa using hne)] at a
      cases a; rfl
    | browsing =>
      simp only [hm] at a
      split at a
      · cases a
      · split at a <;> (cases a; rfl)
  unfold History.forgetLatest at hf
  split at hf
  · cases hf
  · rename_i x rest hbuf
    cases hf
    unfold History.base
    rw [History.entries_inserting c3, ← e1, hbuf]
    simp only [List.length_cons]
    omega

/-- What is left of the history when a `! n` line has been entered and forgotten: some of the entries, with the numbers they had. -/
theorem bang_shrinks {h h1 h2 : History.History} (hw : WF h) {line : Str} (hn : History.newCommand h line = .ok h1) (hf : History.forgetLatest h1 = .ok h2) :
    WF h2 ∧ h2.mode = .inserting ∧ ∃ d k, h2.buffer = ((entriesNewestFirst h).drop d).take k ∧ History.base h2 + d = History.base h := by
  by_cases hne : (entriesNewestFirst h).head? = some line
  · obtain ⟨_, a, b1, b2, b3, _, _⟩ := History.newCommand_ok hw line
    rw [a] at hn; cases hn
    obtain ⟨c1, c2, c3⟩ := History.forget_wf b1 b3 hf
    obtain ⟨e1, _⟩ := C24_repetition_not_stored h h1 line hne a
    refine ⟨c1, c3, 1, (entriesNewestFirst h).length, ?_, ?_⟩
    · unfold History.forgetLatest at hf
      split at hf
      · cases hf
      · rename_i x rest hbuf
        cases hf
        rw [hbuf] at e1
        rw [← e1]
        simp only [List.drop_succ_cons, List.drop_zero, List.length_cons]
        rw [List.take_of_length_le (by omega)]
    · exact bang_same_head hw hne a hf
  · obtain ⟨b1, b2, _, _, b3, b4⟩ := History.bang_forget hw hn hne hf
    exact ⟨b1, b2, 0, _, by rw [b3]; rfl, by rw [b4]; rfl⟩

theorem getElem?_shrunk {α : Type} {l : List α} {d k j : Nat} {c : α} (h : ((l.drop d).take k)[j]? = some c) : l[d + j]? = some c := by
  rw [List.getElem?_take] at h
  split at h
  · rw [List.getElem?_drop] at h; exact h
  · cases h

theorem ranked_shrinks {h h1 h2 : History.History} (hw : WF h) (hr : Ranked h) {line : Str} (hn : History.newCommand h line = .ok h1) (hf : History.forgetLatest h1 = .ok h2) : Ranked h2 := by
  obtain ⟨_, b2, d, k, b3, b4⟩ := bang_shrinks hw hn hf
  intro j c toks m hj hl hg
  rw [History.entries_inserting b2, b3] at hj
  have := hr (d + j) c toks m (getElem?_shrunk hj) hl hg
  omega

/-- The entry found under a number is the one shown with it. -/
theorem at_index {h : History.History} (hm : h.mode = .inserting) {n : Nat} {c : Str} (ha : History.at h n = .ok (some c)) :
    ∃ j, (entriesNewestFirst h)[j]? = some c ∧ n + 1 + j = History.base h := by
  have hc := History.at_mem ha
  have hne : h.idOfOldest + h.buffer.length ≠ 0 := by
    intro h0
    have : h.buffer.length = 0 := by omega
    rw [List.length_eq_zero_iff] at this
    rw [this] at hc; cases hc
  have hl := (History.at_listing h hne n c).1 ha
  unfold listing at hl
  rw [mem_number] at hl
  obtain ⟨i, hi, rfl⟩ := hl
  have hlt : i < h.buffer.length := by
    have := (List.getElem?_eq_some_iff.1 hi).1
    simpa using this
  rw [List.getElem?_reverse hlt] at hi
  refine ⟨_, by rw [History.entries_inserting hm]; exact hi, ?_⟩
  unfold History.base
  rw [History.entries_inserting hm]
  omega

theorem ranked_terminates (fuel k : Nat) (line : Str) (w : World σ τ) (hw : WF w.hist) (hr : Ranked w.hist)
    (hk : ∀ toks n, Lex.Line line toks → GlobalLine toks (.bang n) → n < k) : feed A (fuel + k + 1) line w ≠ .error .stackOverflow := by
  induction k generalizing line w with
  | zero =>
    intro h
    obtain ⟨toks, hl⟩ := line_exists line
    by_cases ht : toks = []
    · subst ht; rw [feed_blank A hl] at h; cases h
    · rcases feed_level_fault A (fuel + 0) hl ht w _ h with h | h | ⟨h1, a1, h | ⟨n, hb, _⟩⟩
      · exact h.1 rfl
      · cases newCommand_fault h
      · cases getCommands_fault h
      · exact absurd (hk toks n hl hb) (by omega)
  | succ k ih =>
    intro h
    obtain ⟨toks, hl⟩ := line_exists line
    by_cases ht : toks = []
    · subst ht; rw [feed_blank A hl] at h; cases h
    · rcases feed_level_fault A (fuel + (k + 1)) hl ht w _ h with h | h | ⟨h1, a1, h | ⟨n, hb, h | ⟨h2, a2, h | ⟨c, a3, h⟩⟩⟩⟩
      · exact h.1 rfl
      · cases newCommand_fault h
      · cases getCommands_fault h
      · cases forget_fault h
      · cases at_fault h
      · obtain ⟨b1, b2, _⟩ := bang_shrinks hw a1 a2
        have hr2 := ranked_shrinks hw hr a1 a2
        obtain ⟨j, e1, e2⟩ := at_index b2 a3
        have hn := hk toks n hl hb
        refine ih c _ b1 hr2 ?_ h
        intro toks' m hl' hb'
        have := hr2 j c toks' m e1 hl' hb'
        omega

/-- **C27** (partial) Feeding any line terminates if every `! m` entry of the history refers to an entry older than itself (or to none); the depth of the recursion is at
    most the number of the line, plus two.
    The condition cannot be weakened to `m` being at most the entry's own number: see the refutation below. -/
theorem C27_ranked_partial (fuel : Nat) (line : Str) (w : World σ τ) (hw : WF w.hist) (hr : Ranked w.hist) :
    feed A (fuel + History.base w.hist + 2) line w ≠ .error .stackOverflow := by
  intro h
  obtain ⟨toks, hl⟩ := line_exists line
  by_cases ht : toks = []
  · subst ht; rw [feed_blank A hl] at h; cases h
  · rcases feed_level_fault A (fuel + History.base w.hist + 1) hl ht w _ h with h | h | ⟨h1, a1, h | ⟨n, hb, h | ⟨h2, a2, h | ⟨c, a3, h⟩⟩⟩⟩
    · exact h.1 rfl
    · cases newCommand_fault h
    · cases getCommands_fault h
    · cases forget_fault h
    · cases at_fault h
    · obtain ⟨b1, b2, d, k, b3, b4⟩ := bang_shrinks hw a1 a2
      have hr2 := ranked_shrinks hw hr a1 a2
      obtain ⟨j, e1, e2⟩ := at_index b2 a3
      refine ranked_terminates A fuel (History.base w.hist) c _ b1 hr2 ?_ h
      intro toks' m hl' hb'
      have := hr2 j c toks' m e1 hl' hb'
      omega

theorem ranked_safe (fuel k : Nat) (line : Str) (w : World σ τ) (hw : WF w.hist) (hsz : 1 ≤ w.hist.maxSize) (hsome : 1 ≤ History.base w.hist) (hr : Ranked w.hist)
    (hk : ∀ toks n, Lex.Line line toks → GlobalLine toks (.bang n) → n < k ∨ History.base w.hist ≤ k) (f : Fault) (h : feed A (fuel + k + 1) line w = .error f) :
    SearchFault f := by
  have hget : ∀ h : History.History, WF h → ∀ f, History.getCommands h = .error f → False := by
    intro h hw f hg
    rw [C29_saved_is_suffix_partial h hw] at hg; cases hg
  induction k generalizing line w with
  | zero =>
    obtain ⟨toks, hl⟩ := line_exists line
    by_cases ht : toks = []
    · subst ht; rw [feed_blank A hl] at h; cases h
    · obtain ⟨h1', a, b, _, _, _, c⟩ := History.newCommand_ok hw line
      rcases feed_level_fault A (fuel + 0) hl ht w _ h with h | h | ⟨h1, a1, h | ⟨n, hb, _⟩⟩
      · exact h
      · rw [a] at h; cases h
      · rw [a] at a1; cases a1
        exact (hget _ b _ h).elim
      · exact absurd (hk toks n hl hb) (by omega)
  | succ k ih =>
    obtain ⟨toks, hl⟩ := line_exists line
    by_cases ht : toks = []
    · subst ht; rw [feed_blank A hl] at h; cases h
    · obtain ⟨h1', a, b, b', _, _, c⟩ := History.newCommand_ok hw line
      rcases feed_level_fault A (fuel + (k + 1)) hl ht w _ h with h | h | ⟨h1, a1, h | ⟨n, hb, h | ⟨h2, a2, h⟩⟩⟩
      · exact h
      · rw [a] at h; cases h
      · rw [a] at a1; cases a1
        exact (hget _ b _ h).elim
      · rw [a] at a1; cases a1
        unfold History.forgetLatest at h
        split at h
        · rename_i hbuf; exact absurd hbuf (c hsz)
        · cases h
      · obtain ⟨b1, b2, d, k', b3, b4⟩ := bang_shrinks hw a1 a2
        have hr2 := ranked_shrinks hw hr a1 a2
        have hs2 : 1 ≤ History.base h2 := by
          by_cases hne : (entriesNewestFirst w.hist).head? = some line
          · have h0 : (entriesNewestFirst w.hist)[0]? = some line := by rw [← List.head?_eq_getElem?]; exact hne
            have hlt := hr 0 line toks n h0 hl hb
            have hd : History.base h2 + 1 = History.base w.hist := by
              exact bang_same_head hw hne a1 a2
            omega
          · have := (History.bang_forget hw a1 hne a2).2.2.2.2.2
            omega
        rcases h with h | ⟨c', a3, h⟩
        · exact absurd h (History.at_safe b2 hs2 n f)
        · obtain ⟨j, e1, e2⟩ := at_index b2 a3
          have hm2 : h2.maxSize = w.hist.maxSize := by
            rw [a] at a1; cases a1
            unfold History.forgetLatest at a2
            split at a2
            · cases a2
            · cases a2; exact b'
          refine ih c' _ b1 (by rw [hm2]; exact hsz) hs2 hr2 ?_ h
          intro toks' m hl' hb'
          have := hr2 j c' toks' m e1 hl' hb'
          rcases hk toks n hl hb with hk | hk
          · left; omega
          · left; omega

/-- **C26** (partial) No line accesses the history out of bounds or recurses for ever, if history entries are kept at all, something has been recorded, and every `! m` entry refers to an
    entry older than itself (or to none). -/
theorem C26_ranked_partial (fuel : Nat) (line : Str) (w : World σ τ) (hw : WF w.hist) (hsz : 1 ≤ w.hist.maxSize) (hsome : 1 ≤ History.base w.hist) (hr : Ranked w.hist) (f : Fault)
    (h : feed A (fuel + History.base w.hist + 1) line w = .error f) : f ≠ .ub .outOfRange ∧ f ≠ .ub .emptyContainer ∧ f ≠ .stackOverflow := by
  have hs := ranked_safe A fuel _ line w hw hsz hsome hr (fun _ _ _ _ => .inr (Nat.le_refl _)) f h
  exact ⟨hs.2.1, hs.2.2, hs.1⟩

/-- **C26** (partial) No line accesses the history out of bounds, if history entries are kept at all, something has been recorded, and no entry is itself a `! n` line. -/
theorem C26_safe_partial (fuel : Nat) (line : Str) (w : World σ τ) (hh : Healthy w.hist) (f : Fault) (h : feed A (fuel + 2) line w = .error f) :
    f ≠ .ub .outOfRange ∧ f ≠ .ub .emptyContainer ∧ f ≠ .stackOverflow := by
  suffices hs : SearchFault f from ⟨hs.2.1, hs.2.2, hs.1⟩
  have hget : ∀ h : History.History, WF h → ∀ f, History.getCommands h = .error f → False := by
    intro h hw f hg
    rw [C29_saved_is_suffix_partial h hw] at hg; cases hg
  have hnewc : ∀ (h : History.History) line f, WF h → History.newCommand h line = .error f → False := by
    intro h line f hw hn
    obtain ⟨_, a, _⟩ := History.newCommand_ok hw line
    rw [a] at hn; cases hn
  obtain ⟨toks, hl⟩ := line_exists line
  by_cases ht : toks = []
  · subst ht; rw [feed_blank A hl] at h; cases h
  · have hw1 : ∀ {h1}, History.newCommand w.hist line = .ok h1 → WF h1 ∧ h1.buffer ≠ [] := by
      intro h1 a1
      obtain ⟨_, a, b, _, _, _, c⟩ := History.newCommand_ok hh.wf line
      rw [a] at a1; cases a1; exact ⟨b, c hh.size⟩
    rcases feed_level_fault A (fuel + 1) hl ht w _ h with h | h | ⟨h1, a1, h | ⟨n, hb, h | ⟨h2, a2, h⟩⟩⟩
    · exact h
    · exact (hnewc _ _ _ hh.wf h).elim
    · exact (hget _ (hw1 a1).1 _ h).elim
    · unfold History.forgetLatest at h
      split at h
      · rename_i hbuf; exact absurd hbuf (hw1 a1).2
      · cases h
    · have hne : (entriesNewestFirst w.hist).head? ≠ some line := fun he => hh.free line (List.mem_of_mem_head? (by rw [he]; rfl)) ⟨toks, n, hl, hb⟩
      obtain ⟨b1, b2, _, _, b3, b4⟩ := History.bang_forget hh.wf a1 hne a2
      rcases h with h | ⟨c, a3, h⟩
      · exact absurd h (History.at_safe b2 (by rw [b4]; exact hh.some) n f)
      · have hc : c ∈ entriesNewestFirst w.hist := by
          have hm := History.at_mem a3
          rw [b3] at hm
          exact List.mem_of_mem_take hm
        obtain ⟨toks', hl'⟩ := line_exists c
        by_cases ht' : toks' = []
        · subst ht'; rw [feed_blank A hl'] at h; cases h
        · rcases feed_level_fault A fuel hl' ht' _ _ h with h | h | ⟨h3, a3, h | ⟨m, hb', _⟩⟩
          · exact h
          · exact (hnewc _ _ _ b1 h).elim
          · obtain ⟨_, a, b, _⟩ := History.newCommand_ok b1 c
            have a3' : History.newCommand h2 c = .ok h3 := a3
            rw [a] at a3'; cases a3'
            exact (hget _ b _ h).elim
          · exact (hh.free c hc ⟨toks', m, hl', hb'⟩).elim

theorem healthy_new {h h1 : History.History} {line : Str} (hh : Healthy h) (hn : History.newCommand h line = .ok h1) (hb : ¬ BangLine line) : Healthy h1 := by
  obtain ⟨_, a, b1, b2, b3, _, _⟩ := History.newCommand_ok hh.wf line
  rw [a] at hn; cases hn
  obtain ⟨c1, c2⟩ := History.new_any hh.wf a
  refine ⟨b1, by rw [b2]; exact hh.size, ?_, ?_⟩
  · intro l hl
    rw [History.entries_inserting b3] at hl
    rcases c1 l hl with rfl | h
    · exact hb
    · exact hh.free l h
  · unfold History.base
    rw [History.entries_inserting b3]
    have := hh.some
    omega

/-- Feeding a line keeps the history healthy. -/
theorem feed_healthy (fuel : Nat) (line : Str) (w w' : World σ τ) (x : Option Exn) (hh : Healthy w.hist) (h : feed A fuel line w = .ok (w', x)) :
    Healthy w'.hist := by
  induction fuel generalizing line w w' x with
  | zero => cases h
  | succ fuel ih =>
    obtain ⟨toks, hl⟩ := line_exists line
    by_cases ht : toks = []
    · subst ht; rw [feed_blank A hl] at h; cases h; exact hh
    · obtain ⟨h1, a1, ⟨hnb, hr⟩ | ⟨n, h2, hb, a2, hr⟩⟩ := feed_level (closed_hist A) fuel hl ht w w' x h
      · rw [hr]
        refine healthy_new hh a1 ?_
        rintro ⟨toks', n, hl', hg⟩
        have : toks' = toks := by
          have e1 := (split_iff line toks').2 hl'
          have e2 := (split_iff line toks).2 hl
          rw [e1] at e2; cases e2; rfl
        subst this
        exact hnb n hg
      · have hne : (entriesNewestFirst w.hist).head? ≠ some line := fun he => hh.free line (List.mem_of_mem_head? (by rw [he]; rfl)) ⟨toks, n, hl, hb⟩
        obtain ⟨b1, b2, b5, _, b3, b4⟩ := History.bang_forget hh.wf a1 hne a2
        have hh2 : Healthy h2 := by
          refine ⟨b1, by rw [b5]; exact hh.size, ?_, by rw [b4]; exact hh.some⟩
          intro l hl
          rw [History.entries_inserting b2, b3] at hl
          exact hh.free l (List.mem_of_mem_take hl)
        rcases hr with ⟨_, hr⟩ | ⟨c, w2, x2, _, hfd, hr⟩
        · rw [hr]; exact hh2
        · rw [hr]; exact ih c _ w2 x2 hh2 hfd

theorem healthy_up {h h' : History.History} {line s : Str} (hh : Healthy h) (hl : ¬ BangLine line) (hp : History.previous h line = .ok (s, h')) : Healthy h' := by
  obtain ⟨s', h2, a1, a2, a3, a4, _⟩ := History.previous_ok hh.wf hh.size line
  rw [hp] at a1; cases a1
  have hb := hh.wf.bound
  have key : (∀ l ∈ entriesNewestFirst h', ¬ BangLine l) ∧ History.base h' = History.base h := by
    cases hm : h.mode with
    | inserting =>
      obtain ⟨_, b1, _⟩ := History.previous_inserting hb hh.size hm line
      rw [hp] at b1; cases b1
      have he : entriesNewestFirst h = h.buffer := History.entries_inserting hm
      have hbuf := History.insert_buffer h hb line
      have hid := History.insert_nextId h line
      unfold History.nextId at hid
      have htl : (History.insert h line).buffer.tail = h.buffer.take (h.maxSize - 1) := by
        rw [hbuf]
        cases hms : h.maxSize with
        | zero => have := hh.size; omega
        | succ k => simp
      refine ⟨?_, ?_⟩
      · intro l hl'
        rw [History.entries_browsing rfl] at hl'
        simp only at hl'
        rw [htl] at hl'
        exact hh.free l (by rw [he]; exact List.mem_of_mem_take hl')
      · unfold History.base
        rw [History.entries_browsing rfl, he]
        simp only [List.length_tail]
        have : 1 ≤ (History.insert h line).buffer.length := by
          rw [hbuf, List.length_take, List.length_cons]; have := hh.size; omega
        omega
    | browsing =>
      obtain ⟨_, b1, _⟩ := History.previous_browsing (hh.wf.browse hm) hm line
      rw [hp] at b1; cases b1
      have he : entriesNewestFirst h = h.buffer.tail := History.entries_browsing hm
      refine ⟨?_, ?_⟩
      · intro l hl'
        rw [History.entries_browsing a4] at hl'
        simp only at hl'
        have : l ∈ h.buffer.tail ∨ l = line := by
          cases hbuf : h.buffer with
          | nil => rw [hbuf] at hl'; simp at hl'
          | cons y ys =>
            rw [hbuf] at hl'
            cases hc : h.current with
            | zero => rw [hc] at hl'; simp at hl'; exact .inl (by simpa using hl')
            | succ k =>
              rw [hc] at hl'
              simp only [List.set_cons_succ, List.tail_cons] at hl'
              rcases List.mem_or_eq_of_mem_set hl' with h | h
              · exact .inl (by simpa using h)
              · exact .inr h
        rcases this with h | rfl
        · exact hh.free l (by rw [he]; exact h)
        · exact hl
      · unfold History.base
        rw [History.entries_browsing a4, he]
        simp
  exact ⟨a2, by rw [a3]; exact hh.size, key.1, by rw [key.2]; exact hh.some⟩

theorem healthy_down {h h' : History.History} {s : Str} (hh : Healthy h) (hp : History.next h = .ok (s, h')) : Healthy h' := by
  obtain ⟨s', h2, a1, a2, a3, a4, a5, a6, _⟩ := History.next_ok hh.wf
  rw [hp] at a1; cases a1
  have he : entriesNewestFirst h' = entriesNewestFirst h := by unfold entriesNewestFirst; rw [a4, a5]
  exact ⟨a2, by rw [a3]; exact hh.size, by intro l hl; rw [he] at hl; exact hh.free l hl, by unfold History.base; rw [he, a6]; exact hh.some⟩

/-- **C26**, **C27** (partial) Sessions: starting from a healthy history (for instance a new session of a history size of at least 1 with a nonempty storage that contains no `! n`
    line), whatever is fed, browsed and done to the menus, feeding a line terminates and does not access the history out of bounds, as long as no recalled entry is edited into
    a `! n` line and left for another one. -/
theorem C26_session_partial (OK : Act → Prop) (w w' : World σ τ) (hh : Healthy w.hist) (h : Exec A OK (fun l => ¬ BangLine l) w w') :
    Healthy w'.hist ∧ ∀ fuel line f, feed A (fuel + 2) line w' = .error f → f ≠ .ub .outOfRange ∧ f ≠ .ub .emptyContainer ∧ f ≠ .stackOverflow := by
  suffices hs : Healthy w'.hist from ⟨hs, fun fuel line f hf => C26_safe_partial A fuel line w' hs f hf⟩
  induction h with
  | refl => exact hh
  | feed _ hf ih => exact feed_healthy A _ _ _ _ _ ih hf
  | act a _ _ ih => rw [(act_same _ a).1.hist]; exact ih
  | prompt _ hq ih =>
    unfold Verif.prompt at hq
    split at hq
    · cases hq; exact ih
    · split at hq
      · cases hq; exact ih
      · cases hq
  | enter _ ih => rw [closed_enter (closed_hist A)]; exact ih
  | exit _ hx ih => rw [closed_exit (closed_hist A) _ _ _ hx]; exact ih
  | up _ hs hp ih => exact healthy_up ih hs hp
  | down _ hp ih => exact healthy_down ih hp

/-- A new session is healthy. -/
theorem C26_new_session (n : Nat) (hn : 1 ≤ n) (w : World σ τ) (io : Io) (hne : A.stored w.storage ≠ []) (hs : ∀ l ∈ A.stored w.storage, ¬ BangLine l) :
    Healthy (newSession A n w io).hist := by
  obtain ⟨h1, h2, h3, h4⟩ := C33_new_session_ready n (A.stored w.storage)
  have h2' : (newSession A n w io).hist.mode = .inserting := h2
  refine ⟨h1, by rw [show (newSession A n w io).hist.maxSize = n from h3]; exact hn, ?_, ?_⟩
  · intro l hl
    rw [History.entries_inserting h2'] at hl
    have hl' : l ∈ (lastN n (A.stored w.storage)).reverse := by rw [← h4]; exact hl
    exact hs l (mem_lastN (List.mem_reverse.1 hl'))
  · unfold History.base
    rw [History.entries_inserting h2']
    have : (newSession A n w io).hist.buffer.length = min n (A.stored w.storage).length := by
      rw [show (newSession A n w io).hist.buffer = _ from h4, List.length_reverse, length_lastN]
    rw [this]
    have : 1 ≤ (A.stored w.storage).length := by
      cases h : A.stored w.storage with
      | nil => exact absurd h hne
      | cons => simp
    omega

/-- **C26** is false of the code: `! 0` as the first line of a session with an empty history reads beyond the end of an empty deque. -/
theorem C26_empty_history_refuted (fuel : Nat) : feed Sample.app (fuel + 1) bs!"! 0" Sample.world = .error (.ub .outOfRange) := by rfl

/-- **C26** … and with history size 0 any `! n` line removes the front of an empty deque. -/
theorem C26_size_zero_refuted (fuel : Nat) :
    feed Sample.app (fuel + 1) bs!"! 7" { Sample.world with hist := History.init 0 } = .error (.ub .emptyContainer) := by rfl

/-- The sample session with an output, a log and a history. -/
def at27 (out : Str) (log : List Event) (h : History.History) : World (List Nat) (List Str) :=
  { Sample.world with io := { Sample.io with out := out }, log := log, hist := h }

/-- **C27** is false of the code: in a session with the menus of the sample application, `a`, Enter, `b`, Enter, Up, Up, editing the line to `! 0`, Up, Enter recurses for ever. -/
theorem C27_self_reference_refuted : ∃ w, Exec Sample.app (fun _ => False) (fun _ => True) Sample.world w ∧
    ∀ fuel, feed Sample.app fuel bs!"! 0" w = .error .stackOverflow := by
  have e1 : Exec Sample.app (fun _ => False) (fun _ => True) Sample.world (at27 bs!"wrong command: a\n" [.wrong bs!"a"] ⟨10, [bs!"a"], 0, 1, .inserting, 0⟩) :=
    .feed (fuel := 1) (line := bs!"a") (x := none) (.refl _) (by rfl)
  have e2 : Exec Sample.app (fun _ => False) (fun _ => True) Sample.world
      (at27 bs!"wrong command: a\nwrong command: b\n" [.wrong bs!"a", .wrong bs!"b"] ⟨10, [bs!"b", bs!"a"], 0, 2, .inserting, 0⟩) :=
    .feed (fuel := 1) (line := bs!"b") (x := none) e1 (by rfl)
  have e3 := Exec.up (line := []) (s := bs!"b") (h := ⟨10, [[], bs!"b", bs!"a"], 1, 2, .browsing, 0⟩) e2 trivial (by rfl)
  have e4 := Exec.up (line := bs!"b") (s := bs!"a") (h := ⟨10, [[], bs!"b", bs!"a"], 2, 2, .browsing, 0⟩) e3 trivial (by rfl)
  have e5 := Exec.up (line := bs!"! 0") (s := bs!"! 0") (h := ⟨10, [[], bs!"b", bs!"! 0"], 2, 2, .browsing, 0⟩) e4 trivial (by rfl)
  refine ⟨_, e5, ?_⟩
  have hsp : Number.SpellsNat bs!"0" 0 := ((FromString.unsigned_ok Sample.app.plat .w32 _ _).1 (by rfl)).1
  have hl : Lex.Line bs!"! 0" [bs!"!", bs!"0"] := (split_iff _ _).1 (by rfl)
  have step : ∀ fuel (w : World (List Nat) (List Str)) cmds, History.newCommand w.hist bs!"! 0" = .ok ⟨10, [bs!"! 0", bs!"b", bs!"! 0"], 0, cmds, .inserting, 0⟩ →
      (∀ w' : World (List Nat) (List Str), w'.hist = ⟨10, [bs!"b", bs!"! 0"], 0, cmds, .inserting, 0⟩ → feed Sample.app fuel bs!"! 0" w' = .error .stackOverflow) →
      feed Sample.app (fuel + 1) bs!"! 0" w = .error .stackOverflow := by
    intro fuel w cmds hn ih
    rw [feed_eq Sample.app hl (by simp), hn]
    simp only [body, scanGlobal_bang Sample.app (feed Sample.app fuel) _ hsp (by decide), bangPart]
    have hf : History.forgetLatest (w.entered ⟨10, [bs!"! 0", bs!"b", bs!"! 0"], 0, cmds, .inserting, 0⟩).hist = .ok ⟨10, [bs!"b", bs!"! 0"], 0, cmds, .inserting, 0⟩ := by rfl
    have hat : History.at ⟨10, [bs!"b", bs!"! 0"], 0, cmds, .inserting, 0⟩ 0 = .ok (some bs!"! 0") := by rfl
    rw [hf]
    simp only [hat]
    rw [ih _ rfl]
    rfl
  have loop : ∀ fuel (w : World (List Nat) (List Str)) cmds, w.hist = ⟨10, [bs!"b", bs!"! 0"], 0, cmds, .inserting, 0⟩ →
      feed Sample.app fuel bs!"! 0" w = .error .stackOverflow := by
    intro fuel
    induction fuel with
    | zero => intro w cmds _; rfl
    | succ fuel ih =>
      intro w cmds hw
      refine step fuel w (cmds + 1) ?_ (fun w' hw' => ih w' _ hw')
      rw [hw]; rfl
  intro fuel
  cases fuel with
  | zero => rfl
  | succ fuel => exact step fuel _ 3 (by rfl) (fun w' hw' => loop fuel w' _ hw')

/-- **C27** … and so does every line `! n` that is stored as the entry `n` it refers to, in any application, unless it is the newest entry or the history is full. -/
theorem C27_self_reference_diverges (fuel n : Nat) (line : Str) (toks : List Str) (hl : Lex.Line line toks) (hb : GlobalLine toks (.bang n)) (w : World σ τ) (hw : WF w.hist)
    (hm : w.hist.mode = .inserting) (hc : (n, line) ∈ listing w.hist) (hfull : w.hist.buffer.length < w.hist.maxSize) (hne : w.hist.buffer.head? ≠ some line) :
    feed A fuel line w = .error .stackOverflow := by
  induction fuel generalizing w with
  | zero => rfl
  | succ fuel ih =>
    have ht : toks ≠ [] := by rintro rfl; cases hb
    have hpos : w.hist.idOfOldest + w.hist.buffer.length ≠ 0 := by
      intro h0
      have : w.hist.buffer = [] := List.length_eq_zero_iff.1 (by omega)
      unfold listing at hc
      rw [this] at hc; simp [HistoryList.number] at hc
    have hbne : w.hist.buffer ≠ [] := by
      intro h0
      unfold listing at hc
      rw [h0] at hc; simp [HistoryList.number] at hc
    obtain ⟨h1, a1, b1, b2, b3, _, b5⟩ := History.newCommand_ok hw line
    have hne' : (entriesNewestFirst w.hist).head? ≠ some line := by rw [History.entries_inserting hm]; exact hne
    cases hf : History.forgetLatest h1 with
    | error f =>
      unfold History.forgetLatest at hf
      split at hf
      · rename_i hbuf; exact absurd hbuf (b5 (by omega))
      · cases hf
    | ok h2 =>
      obtain ⟨c1, c2, c3, _, c5, c6⟩ := History.bang_forget hw a1 hne' hf
      rw [History.entries_inserting hm, List.take_of_length_le (by omega)] at c5
      have hid : h2.idOfOldest = w.hist.idOfOldest := by
        unfold History.base at c6
        rw [History.entries_inserting hm, History.entries_inserting c2, c5] at c6
        omega
      have hlist : listing h2 = listing w.hist := by unfold listing; rw [c5, hid]
      have hat : History.at h2 n = .ok (some line) := (History.at_listing h2 (by rw [c5, hid]; exact hpos) n line).2 (by rw [hlist]; exact hc)
      rw [feed_eq A hl ht, a1]
      cases hb with
      | bang hs1 hs2 =>
        simp only [body, scanGlobal_bang A (feed A fuel) _ hs1 hs2, bangPart]
        have hf' : History.forgetLatest (w.entered h1).hist = .ok h2 := hf
        rw [hf']
        simp only [hat]
        rw [ih _ c1 c2 (by rw [hlist]; exact hc) (by rw [c5, c3]; exact hfull) (by rw [c5]; exact hne)]
        rfl

/-- A history in which `! 1` is the entry 2, and refers to `! 0`, the entry 1. -/
example : Ranked ⟨10, [bs!"! 1", bs!"! 0", bs!"any x"], 0, 3, .inserting, 0⟩ := by
  intro j c toks m hj hl hb
  have h1' := (split_iff _ _).2 hl
  match j, hj with
  | 0, hj =>
    simp [entriesNewestFirst] at hj; subst hj
    rw [show Split.split bs!"! 1" = .ok [bs!"!", bs!"1"] from rfl] at h1'; cases h1'
    cases hb with
    | bang hs1 hs2 =>
      have := (FromString.unsigned_ok Sample.app.plat .w32 _ _).2 ⟨hs1, hs2⟩
      cases this; decide
  | 1, hj =>
    simp [entriesNewestFirst] at hj; subst hj
    rw [show Split.split bs!"! 0" = .ok [bs!"!", bs!"0"] from rfl] at h1'; cases h1'
    cases hb with
    | bang hs1 hs2 =>
      have := (FromString.unsigned_ok Sample.app.plat .w32 _ _).2 ⟨hs1, hs2⟩
      cases this; decide
  | 2, hj =>
    simp [entriesNewestFirst] at hj; subst hj
    rw [show Split.split bs!"any x" = .ok [bs!"any", bs!"x"] from rfl] at h1'; cases h1'; cases hb
  | j + 3, hj => simp [entriesNewestFirst] at hj

/-- … and it is executed: `! 2` runs `any x`. -/
example : (feed Sample.tame 10 bs!"! 2" { Sample.world with hist := ⟨10, [bs!"! 1", bs!"! 0", bs!"any x"], 0, 3, .inserting, 0⟩ }).toOption.map (fun p => p.1.hist.buffer) =
    some [bs!"any x"] := by rfl

/-- A healthy session that uses `!`. -/
example : Healthy typed.hist where
  wf := ⟨by decide, by decide, by decide⟩
  size := by decide
  free := by
    intro l hl
    rintro ⟨toks, n, h1, h2⟩
    have h1' := (split_iff _ _).2 h1
    have hl' : l = bs!"any y" ∨ l = bs!"any x" ∨ l = bs!"go" := by simpa [typed, entriesNewestFirst] using hl
    rcases hl' with rfl | rfl | rfl
    · rw [show Split.split bs!"any y" = .ok [bs!"any", bs!"y"] from rfl] at h1'; cases h1'; cases h2
    · rw [show Split.split bs!"any x" = .ok [bs!"any", bs!"x"] from rfl] at h1'; cases h1'; cases h2
    · rw [show Split.split bs!"go" = .ok [bs!"go"] from rfl] at h1'; cases h1'; cases h2
  some := by decide

/-! ### C28 for sessions -/

/-- **C28** Browsing the history with Up and Down before entering a line makes no difference to what the line does and to the history afterwards (if the history is not full, or
    the line is not the newest entry). -/
theorem C28_feed_after_browsing (fuel : Nat) (w : World σ τ) (hw : WF w.hist) (hmode : w.hist.mode = .inserting) (hm : 1 ≤ w.hist.maxSize)
    (keys : List Bool) (typed shown : Str) (h' : History.History) (hb : History.browse keys typed w.hist = .ok (shown, h'))
    (line : Str) (hne : ¬ Lex.Line line []) (hnf : (listing w.hist).length < w.hist.maxSize ∨ w.hist.buffer.head? ≠ some line) :
    feed A fuel line { w with hist := h' } = feed A fuel line w := by
  cases fuel with
  | zero => rfl
  | succ fuel =>
    obtain ⟨toks, hl⟩ := line_exists line
    have ht : toks ≠ [] := by rintro rfl; exact hne hl
    rw [feed_eq A hl ht, feed_eq A hl ht]
    rw [C28_browsing_transparent w.hist hw hmode hm keys typed shown h' hb line hnf]
    rfl

example : ∃ h', History.browse [true, true, false] bs!"any" typed.hist = .ok (bs!"any y", h') ∧
    feed Sample.tame 1 bs!"any y!" { typed with hist := h' } = feed Sample.tame 1 bs!"any y!" typed := ⟨_, rfl, rfl⟩

end Verif.Props
