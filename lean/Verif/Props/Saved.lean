import Verif.Props.Bang
import Verif.Props.Life

/-!
# Property C29 for all sessions: nothing that was recorded in the session is left out

`C29_session_partial` and `C29_session_repetitions_partial` say exactly what is saved by the sessions in which no line is re-executed. Here any execution is allowed: repetitions,
re-executions `! n` (nested ones too), browsing, entries that are edited while the history is browsed.
-/

set_option linter.unusedSimpArgs false

namespace Verif.Props

open Spec HistoryList
open History (WF listing)

/-- The history of a session that started with `b` numbers in use has recorded no more new entries than it counted commands. -/
structure Counted (b : Nat) (h : History.History) : Prop where
  wf : WF h
  size : 1 ≤ h.maxSize
  few : History.base h ≤ b + h.commands

theorem counted_new {b : Nat} {h h1 : History.History} {line : Str} (hh : Counted b h) (hn : History.newCommand h line = .ok h1) :
    Counted b h1 ∧ h1.mode = .inserting := by
  obtain ⟨_, a, b1, b2, b3, b4, _⟩ := History.newCommand_ok hh.wf line
  rw [a] at hn; cases hn
  refine ⟨⟨b1, by rw [b2]; exact hh.size, ?_⟩, b3⟩
  have hf := hh.few
  by_cases hne : (entriesNewestFirst h).head? = some line
  · obtain ⟨c1, c2⟩ := C24_repetition_not_stored h _ line hne a
    have hid : History.base _ = History.base h := base_repeat hne a
    rw [hid, b4]; omega
  · obtain ⟨_, _, _, _, c5⟩ := History.new_fresh hh.wf a hne
    unfold History.base
    rw [History.entries_inserting b3, c5, b4]
    omega
where
  base_repeat {h h1 : History.History} {line : Str} (hne : (entriesNewestFirst h).head? = some line) (a : History.newCommand h line = .ok h1) : History.base h1 = History.base h := by
    obtain ⟨c1, c2⟩ := C24_repetition_not_stored h _ line hne a
    unfold History.base
    rw [History.entries_inserting c2, c1]
    suffices h1.idOfOldest = h.idOfOldest by rw [this]
    unfold History.newCommand at a
    unfold entriesNewestFirst at hne
    cases hmd : h.mode with
    | inserting =>
      simp only [hmd] at a hne
      rw [if_neg (by simpa using hne)] at a
      cases a; rfl
    | browsing =>
      simp only [hmd] at a hne
      cases hb : h.buffer with
      | nil => rw [hb] at hne; simp at hne
      | cons x rest =>
        rw [hb] at a hne
        simp only [List.tail_cons] at hne
        simp only [if_pos hne] at a
        cases a; rfl

theorem counted_forget {b : Nat} {h h' : History.History} (hh : Counted b h) (hm : h.mode = .inserting) (hf : History.forgetLatest h = .ok h') : Counted b h' := by
  obtain ⟨a1, a2, a3⟩ := History.forget_wf hh.wf hm hf
  refine ⟨a1, by rw [a2]; exact hh.size, ?_⟩
  have hfew := hh.few
  unfold History.base at hfew ⊢
  rw [History.entries_inserting hm] at hfew
  rw [History.entries_inserting a3]
  unfold History.forgetLatest at hf
  split at hf
  · cases hf
  · rename_i x rest hb
    cases hf
    rw [hb] at hfew
    simp at hfew ⊢
    omega

theorem counted_up {b : Nat} {h h' : History.History} {line s : Str} (hh : Counted b h) (hp : History.previous h line = .ok (s, h')) : Counted b h' := by
  obtain ⟨s', h2, a1, a2, a3, a4, a5, _⟩ := History.previous_ok hh.wf hh.size line
  rw [hp] at a1; cases a1
  have hb := hh.wf.bound
  refine ⟨a2, by rw [a3]; exact hh.size, ?_⟩
  rw [a5]
  have key : History.base h' = History.base h := by
    cases hm : h.mode with
    | inserting =>
      obtain ⟨_, b1, _⟩ := History.previous_inserting hb hh.size hm line
      rw [hp] at b1; cases b1
      have hbuf := History.insert_buffer h hb line
      have hid := History.insert_nextId h line
      unfold History.nextId at hid
      unfold History.base
      rw [History.entries_browsing rfl, History.entries_inserting hm]
      simp only [List.length_tail]
      have : 1 ≤ (History.insert h line).buffer.length := by
        rw [hbuf, List.length_take, List.length_cons]; have := hh.size; omega
      omega
    | browsing =>
      obtain ⟨_, b1, _⟩ := History.previous_browsing (hh.wf.browse hm) hm line
      rw [hp] at b1; cases b1
      unfold History.base
      rw [History.entries_browsing a4, History.entries_browsing hm]
      simp
  rw [key]; exact hh.few

theorem counted_down {b : Nat} {h h' : History.History} {s : Str} (hh : Counted b h) (hp : History.next h = .ok (s, h')) : Counted b h' := by
  obtain ⟨s', h2, a1, a2, a3, a4, a5, a6, a7⟩ := History.next_ok hh.wf
  rw [hp] at a1; cases a1
  have he : entriesNewestFirst h' = entriesNewestFirst h := by unfold entriesNewestFirst; rw [a4, a5]
  exact ⟨a2, by rw [a3]; exact hh.size, by unfold History.base; rw [he, a6, a7]; exact hh.few⟩

variable {σ τ : Type} (A : App σ τ)

theorem feed_counted (b fuel : Nat) (line : Str) (w w' : World σ τ) (x : Option Exn) (hh : Counted b w.hist) (h : feed A fuel line w = .ok (w', x)) : Counted b w'.hist := by
  induction fuel generalizing line w w' x with
  | zero => cases h
  | succ fuel ih =>
    obtain ⟨toks, hl⟩ := line_exists line
    by_cases ht : toks = []
    · subst ht; rw [feed_blank A hl] at h; cases h; exact hh
    · obtain ⟨h1, a1, ⟨hnb, hr⟩ | ⟨n, h2, hb, a2, hr⟩⟩ := feed_level (closed_hist A) fuel hl ht w w' x h
      · rw [hr]; exact (counted_new hh a1).1
      · have c1 := counted_new hh a1
        have c2 := counted_forget c1.1 c1.2 a2
        rcases hr with ⟨_, hr⟩ | ⟨c, w2, x2, _, hfd, hr⟩
        · rw [hr]; exact c2
        · rw [hr]; exact ih c _ w2 x2 c2 hfd

theorem exec_counted (b : Nat) {OK : Act → Prop} {Shown : Str → Prop} {w w' : World σ τ} (hh : Counted b w.hist) (h : Exec A OK Shown w w') : Counted b w'.hist := by
  induction h with
  | refl => exact hh
  | feed _ hf ih => exact feed_counted A b _ _ _ _ _ ih hf
  | act a _ _ ih => rw [(act_same _ a).1.hist]; exact ih
  | prompt _ hq ih =>
    unfold Verif.prompt at hq
    split at hq
    · cases hq; exact ih
    · split at hq
      · cases hq; exact ih
      · cases hq
  | enter _ ih => rw [closed_enter (closed_hist A)]; exact ih
  | exit _ hx ih => rw [closed_exit (closed_hist A) _ _ _ hx]; exact ih
  | up _ hs hp ih => exact counted_up ih hp
  | down _ hp ih => exact counted_down ih hp

theorem number_length (first : Nat) (l : List Str) : (number first l).length = l.length := by
  induction l generalizing first with
  | nil => rfl
  | cons c cs ih => simp [number, ih]

theorem number_drop (first k : Nat) (l : List Str) : ((number first l).drop k).map (·.2) = l.drop k := by
  induction l generalizing first k with
  | nil => simp [number]
  | cons c cs ih =>
    cases k with
    | zero => have := ih (first + 1) 0; simp [number] at this ⊢; exact this
    | succ k => simpa [number] using ih (first + 1) k

theorem number_take (first k : Nat) (l : List Str) : ∀ p ∈ (number first l).take k, p.1 < first + k ∧ p.1 < first + l.length := by
  induction l generalizing first k with
  | nil => simp [number]
  | cons c cs ih =>
    cases k with
    | zero => simp
    | succ k =>
      intro p hp
      simp only [number, List.take_succ_cons, List.mem_cons] at hp
      rcases hp with rfl | hp
      · simp
      · have := ih (first + 1) k p hp
        simp only [List.length_cons]
        omega

theorem settled_number (h : History.History) (hw : WF h) : settled h = number h.idOfOldest (entriesNewestFirst h).reverse := by
  unfold settled entriesNewestFirst
  cases hm : h.mode with
  | inserting => rfl
  | browsing =>
    have hc := hw.browse hm
    cases hb : h.buffer with
    | nil => rw [hb] at hc; simp at hc
    | cons x rest => simp [listing, hb, number_append, number]

/-- **C29** Whatever happens in a session — lines repeated, re-executed with `! n`, entries edited while the history is browsed —, what is handed to the storage when it is left is a
    final part of the entries it lists, oldest first, and of the listed entries only such are left out whose number is below the number of commands that the session found in the storage: those
    are the entries it was started with. No entry that was recorded in the session and still is in its history is missing. -/
theorem C29_nothing_missed {OK : Act → Prop} {Shown : Str → Prop} (n : Nat) (hn : 1 ≤ n) (w0 w w' : World σ τ) (io : Io) (hr : Exec A OK Shown (newSession A n w0 io) w)
    (hx : exitSession A w = .ok (w', none)) :
    ∃ k, w'.storage = A.store w.storage (((settled w.hist).drop k).map (·.2)) ∧ ∀ p ∈ (settled w.hist).take k, p.1 < (A.stored w0.storage).length := by
  have h0 : Counted (A.stored w0.storage).length (newSession A n w0 io).hist := by
    obtain ⟨h1, h2, h3, h4⟩ := C33_new_session_ready n (A.stored w0.storage)
    refine ⟨h1, by rw [show (newSession A n w0 io).hist.maxSize = n from h3]; exact hn, ?_⟩
    have := load_base (A.stored w0.storage) (History.init n)
    unfold History.base
    rw [History.entries_inserting (show (newSession A n w0 io).hist.mode = .inserting from h2)]
    have e : (newSession A n w0 io).hist.idOfOldest + (newSession A n w0 io).hist.buffer.length = (History.init n).idOfOldest + (History.init n).buffer.length + (A.stored w0.storage).length := this
    rw [e]
    simp [History.init]
  have hc := exec_counted A _ h0 hr
  have hs := settled_number w.hist hc.wf
  have hg := C29_saved_is_suffix_partial w.hist hc.wf
  have hst := (exitSession_saves A hg hx).1
  refine ⟨(entriesNewestFirst w.hist).length - w.hist.commands, ?_, ?_⟩
  · rw [hst, hs, number_drop]
    unfold lastN
    rw [List.length_reverse]
  · intro p hp
    rw [hs] at hp
    have hp' := number_take _ _ _ p hp
    have hf := hc.few
    unfold History.base at hf
    rw [List.length_reverse] at hp'
    by_cases hk : w.hist.commands ≤ (entriesNewestFirst w.hist).length
    · omega
    · have : (entriesNewestFirst w.hist).length - w.hist.commands = 0 := by omega
      rw [this] at hp
      simp at hp

/-- A session that finds `a`, `b` and `d` in the storage. -/
def found29 : World (List Nat) (List Str) := newSession Sample.app 10 { Sample.world with storage := [bs!"a", bs!"b", bs!"d"] } Sample.io

/-- **C29 is false of the code** for re-executions too: a session that finds `a`, `b` and `d` in the storage, in which `c` and then `! 1` are entered, hands `d`, `c`, `b` to the storage when it is left: the
    old command `d` is stored a second time. -/
theorem C29_reexecuted_refuted : ∃ w1 w2 w3, feed Sample.app 3 bs!"c" found29 = .ok (w1, none) ∧ feed Sample.app 3 bs!"! 1" w1 = .ok (w2, none) ∧
    exitSession Sample.app w2 = .ok (w3, none) ∧ w3.log.getLast? = some (.saved [bs!"d", bs!"c", bs!"b"]) :=
  ⟨_, _, _, rfl, rfl, rfl, rfl⟩

/-- The case meets the hypotheses of `C29_nothing_missed`: `a` and `b`, numbers 0 and 1, are left out; three commands were found in the storage. -/
example : ∃ w2 w3, Exec Sample.app (fun _ => False) (fun _ => False) found29 w2 ∧ exitSession Sample.app w2 = .ok (w3, none) ∧
    settled w2.hist = [(0, bs!"a"), (1, bs!"b"), (2, bs!"d"), (3, bs!"c"), (4, bs!"b")] :=
  ⟨_, _, .feed (fuel := 3) (line := bs!"! 1") (x := none) (.feed (fuel := 3) (line := bs!"c") (x := none) (.refl _) rfl) rfl, rfl, rfl⟩

end Verif.Props
