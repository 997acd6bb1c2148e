import Verif.Spec.Diary
import Verif.Props.Storage
import Verif.Props.Ensemble

set_option linter.unusedSimpArgs false

/-!
# Property C133: what the program `complete` remembers from one run to the next
-/

namespace Verif.Showcase.Diary
open Spec Props Ensemble
open Terminal (Key)
open Script (Harmless line_same)
open Company (answer_mem)
open Storage (FileStore)

/-! ### The history file -/

/-- complete.cpp:244, filehistorystorage.h:48-61: `Store`, for the contents of the file; `size` is the second argument of the constructor (43). -/
def store (size : Nat) (file : Option Str) (cmds : List Str) : Option Str := (FileStore.store ⟨size, file⟩ cmds).file

/-- filehistorystorage.h:62-73 `Commands`. -/
def stored (file : Option Str) : List Str := FileStore.Commands ⟨0, file⟩

theorem stored_eq (size : Nat) (file : Option Str) : FileStore.Commands ⟨size, file⟩ = stored file := rfl

theorem stored_plain (file : Option Str) : NoNewline (stored file) := commands_noNewline _

theorem stored_store (size : Nat) (file : Option Str) (cmds : List Str) (h : NoNewline cmds) : stored (store size file cmds) = remember size (stored file) cmds := store_commands ⟨size, file⟩ cmds h

/-! ### Nothing contains the end of a line -/

structure Tidy {τ : Type} (H : Stage τ) : Prop where
  entries : ∀ i g, H.hall.chairs i = .guest g → NoNewline g.book.entries
  text : ∀ i, b%'\n' ∉ (H.typing i).text
  back : ∀ i draft k, (H.typing i).back = some (draft, k) → b%'\n' ∉ draft

structure TidyDesk (d : Desk) : Prop where
  entries : NoNewline d.seat.book.entries
  text : b%'\n' ∉ d.text
  back : ∀ draft k, d.back = some (draft, k) → b%'\n' ∉ draft

theorem page_tidy {b : Book} (hb : NoNewline b.entries) {draft : Str} (hd : b%'\n' ∉ draft) (k : Nat) : b%'\n' ∉ b.page draft k := by
  cases k with
  | zero => exact hd
  | succ k =>
    simp only [Book.page, List.getD_eq_getElem?_getD]
    cases he : b.entries.reverse[k]? with
    | none => simp
    | some e => exact hb e (List.mem_reverse.1 (List.mem_of_getElem? he))

theorem look_tidy (d : Desk) {b : Book} (hb : NoNewline b.entries) {draft : Str} (hd : b%'\n' ∉ draft) (k : Nat) : TidyDesk (d.look b draft k) := by
  refine ⟨hb, ?_, ?_⟩
  · simp only [Desk.text, Desk.look, text_ofLine]
    exact page_tidy hb hd _
  · intro d' k' h
    simp only [Desk.look, Option.some.injEq, Prod.mk.injEq] at h
    rw [← h.1]; exact hd

theorem up_tidy {d : Desk} (h : TidyDesk d) : TidyDesk d.up := by
  obtain ⟨s, z, back⟩ := d
  cases back with
  | none =>
    refine look_tidy _ (fun c hc => ?_) h.text 1
    unfold Book.spare at hc
    split at hc
    · exact h.entries c hc
    · exact h.entries c (List.mem_of_mem_drop hc)
  | some b =>
    obtain ⟨draft, k⟩ := b
    cases k with
    | zero => exact look_tidy _ h.entries h.text 1
    | succ k =>
      refine look_tidy _ (fun c hc => ?_) (h.back draft _ rfl) (k + 2)
      simp only [Book.amend, List.mem_reverse] at hc
      rcases List.mem_or_eq_of_mem_set hc with hc | rfl
      · exact h.entries c (List.mem_reverse.1 hc)
      · exact h.text

theorem down_tidy {d : Desk} (h : TidyDesk d) : TidyDesk d.down := by
  obtain ⟨s, z, back⟩ := d
  cases back with
  | none => exact ⟨h.entries, by simp [Desk.down, Desk.write, Desk.text, Zip.ofLine, Zip.text], h.back⟩
  | some b =>
    obtain ⟨draft, k⟩ := b
    cases k with
    | zero => exact ⟨h.entries, by simp [Desk.down, Desk.write, Desk.text, Zip.ofLine, Zip.text], h.back⟩
    | succ k => exact look_tidy _ h.entries (h.back draft _ rfl) k

theorem write_tidy {d : Desk} (h : TidyDesk d) {l : Str} (hl : b%'\n' ∉ l) (s : Seat) (hs : s.book = d.seat.book) : TidyDesk { d.write l with seat := s } :=
  ⟨by show NoNewline s.book.entries; rw [hs]; exact h.entries, by simpa only [Desk.write, Desk.text, text_ofLine] using hl, h.back⟩

theorem pressed_tidy {d d' : Desk} {k : Key} {t : Str} (h : Pressed d k d' t) (hk : k ≠ .ascii b%'\n') (ht : TidyDesk d) : TidyDesk d' := by
  have tx := ht.text
  simp only [Desk.text] at tx
  cases h with
  | @char s z b c hc =>
    refine ⟨ht.entries, ?_, ht.back⟩
    have : c ≠ b%'\n' := fun e => hk (by rw [e])
    simp only [Desk.text, Zip.text, List.reverse_cons, List.append_assoc, List.mem_append, List.mem_singleton, List.mem_cons, not_or, List.not_mem_nil] at tx ⊢
    exact ⟨tx.1, ⟨this.symm, id⟩, tx.2⟩
  | backspace =>
    refine ⟨ht.entries, ?_, ht.back⟩
    simp only [Desk.text, Zip.text, List.reverse_cons, List.append_assoc, List.mem_append, List.mem_singleton, List.mem_cons, not_or] at tx ⊢
    exact ⟨tx.1, tx.2.2⟩
  | canc =>
    refine ⟨ht.entries, ?_, ht.back⟩
    simp only [Desk.text, Zip.text, List.mem_append, List.mem_cons, not_or] at tx ⊢
    exact ⟨tx.1, tx.2.2⟩
  | left => exact ⟨ht.entries, by simpa [Desk.text, Zip.text] using tx, ht.back⟩
  | right => exact ⟨ht.entries, by simpa [Desk.text, Zip.text] using tx, ht.back⟩
  | first _ => exact ht
  | last _ => exact ht
  | home => exact ⟨ht.entries, by simpa [Desk.text, Zip.text] using tx, ht.back⟩
  | «end» => exact ⟨ht.entries, by simpa [Desk.text, Zip.text, Zip.ofLine] using tx, ht.back⟩
  | ignored => exact ht
  | up => have := up_tidy ht; exact ⟨this.entries, this.text, this.back⟩
  | down => have := down_tidy ht; exact ⟨this.entries, this.text, this.back⟩
  | clear => exact write_tidy ht tx _ rfl
  | tabNone _ => exact ht
  | @tabOne _ c ho =>
    have hc := completes_letters ((ho.2 _).1 (List.mem_singleton.2 rfl))
    refine write_tidy ht (letters_line fun x hx => ?_) _ rfl
    rcases List.mem_append.1 hx with hx | hx
    · exact hc x hx
    · rw [List.mem_singleton.1 hx]; decide
  | tabMore ho hp _ =>
    have hc := completes_letters ((ho.2 _).1 List.mem_cons_self)
    exact write_tidy ht (letters_line fun x hx => hc x ((hp.1 _ List.mem_cons_self).subset hx)) _ rfl
  | tabList _ _ _ => exact write_tidy ht tx _ rfl

/-! ### What happens with the file is what happens with what is remembered -/

/-- The same, if we look at the lines in the file. -/
def read (H : Stage (Option Str)) : Stage (List Str) := ⟨⟨H.hall.colour, H.hall.gone, stored H.hall.storage, H.hall.chairs, H.hall.over⟩, H.typing⟩

theorem tidy_desk {τ : Type} {H : Stage τ} (h : Tidy H) {i : Nat} {g : Guest} (hg : H.hall.chairs i = .guest g) : TidyDesk (H.desk i g) := ⟨h.entries i g hg, h.text i, h.back i⟩

theorem put_tidy {H H' : Stage (Option Str)} (h : Tidy H) (i : Nat) (d : Draft) (he : ∀ g, H'.hall.chairs i = .guest g → NoNewline g.book.entries) (ho : ∀ j, j ≠ i → ∀ g, H'.hall.chairs j = .guest g → ∃ g0, H.hall.chairs j = .guest g0 ∧ g.book = g0.book)
    (hty : H'.typing = H.write i d) (hx : b%'\n' ∉ d.text) (hb : ∀ draft k, d.back = some (draft, k) → b%'\n' ∉ draft) : Tidy H' := by
  refine ⟨fun j g hg => ?_, fun j => ?_, fun j => ?_⟩
  · by_cases hj : j = i
    · subst hj; exact he g hg
    · obtain ⟨g0, h1, h2⟩ := ho j hj g hg
      rw [h2]; exact h.entries j g0 h1
  · rw [hty]; simp only [Stage.write]
    split
    · exact hx
    · exact h.text j
  · rw [hty]; simp only [Stage.write]
    split
    · exact hb
    · exact h.back j

variable {E : Env} {size : Nat} {greeting : Str}

theorem plays_read {H H' : Stage (Option Str)} {m : Cue} (h : Plays E (store size) stored greeting H m H') (hm : ∀ i, m ≠ .key i (.ascii b%'\n')) (ht : Tidy H) : Plays E (remember size) id greeting (read H) m (read H') ∧ Tidy H' := by
  have none_text : b%'\n' ∉ Draft.none.text := by simp [Draft.none, Draft.text, Zip.text]
  have none_back : ∀ draft k, Draft.none.back = some (draft, k) → b%'\n' ∉ draft := fun _ _ h => by cases h
  cases h with
  | @comes i room tty s h1 h2 h3 =>
    refine ⟨.comes (H := read H) h1 h2 h3, put_tidy ht i .none ?_ ?_ rfl none_text none_back⟩
    · intro g hg
      simp only [Hall.put, if_true, Chair.guest.injEq] at hg
      rw [← hg, h3]
      exact fun c hc => stored_plain _ c (List.mem_of_mem_drop hc)
    · intro j hj g hg
      simp only [Hall.put, hj, if_false] at hg
      exact ⟨g, hg, rfl⟩
  | @press i k g d t h1 h2 h3 =>
    have td := pressed_tidy h3 (fun e => hm i (by rw [e])) (tidy_desk ht h2)
    refine ⟨.press (H := read H) h1 h2 h3, put_tidy ht i ⟨d.line, d.back⟩ ?_ ?_ rfl td.text td.back⟩
    · intro g' hg
      simp only [Hall.put, if_true, Chair.guest.injEq] at hg
      rw [← hg]; exact td.entries
    · intro j hj g hg
      simp only [Hall.put, hj, if_false] at hg
      exact ⟨g, hg, rfl⟩
  | @answer i g s' t text b h1 h2 h3 h4 h5 =>
    refine ⟨.answer (H := read H) h1 h2 h3 h4 h5, put_tidy ht i ⟨⟨[], []⟩, b⟩ ?_ ?_ rfl (by simp [Draft.text, Zip.text]) ?_⟩
    · intro g' hg
      simp only [if_true, Chair.guest.injEq] at hg
      rw [← hg]
      intro c hc
      rcases answer_mem h3 c hc with hc | rfl
      · exact ht.entries i g h2 c hc
      · exact ht.text i
    · intro j hj g' hg
      simp only [hj, if_false] at hg
      cases hc : H.hall.chairs j with
      | empty => rw [hc] at hg; cases hg
      | leaving t => rw [hc] at hg; cases hg
      | guest g2 => rw [hc] at hg; cases hg; exact ⟨g2, rfl, rfl⟩
    · rcases h5 with ⟨_, rfl⟩ | ⟨_, rfl⟩
      · exact ht.back i
      · exact fun _ _ h => by cases h
  | @quits i g saved h1 h2 h3 =>
    have hn : NoNewline saved := by
      intro c hc
      rcases saves_mem h3 c hc with hc | ⟨rfl, _⟩
      · exact ht.entries i g h2 c hc
      · exact ht.text i
    refine ⟨?_, put_tidy ht i .none ?_ ?_ rfl none_text none_back⟩
    · have := Plays.quits (E := E) (store := remember size) (stored := id) (greeting := greeting) (H := read H) h1 h2 h3
      simp only [read, Hall.put, stored_store size _ _ hn] at this ⊢
      exact this
    · intro g hg; simp [Hall.put] at hg
    · intro j hj g hg
      simp only [Hall.put, hj, if_false] at hg
      exact ⟨g, hg, rfl⟩
  | @ends i g h1 h2 =>
    have hn : NoNewline g.book.saved := fun c hc => ht.entries i g h2 c (List.mem_of_mem_drop hc)
    refine ⟨?_, put_tidy ht i .none ?_ ?_ rfl none_text none_back⟩
    · have := Plays.ends (E := E) (store := remember size) (stored := id) (greeting := greeting) (H := read H) h1 h2
      simp only [read, Hall.put, stored_store size _ _ hn] at this ⊢
      exact this
    · intro g hg; simp [Hall.put] at hg
    · intro j hj g hg
      simp only [Hall.put, hj, if_false] at hg
      exact ⟨g, hg, rfl⟩
  | @answers i g text h1 h2 h3 =>
    refine ⟨.answers (H := read H) h1 h2 h3, fun j g' hg => ?_, ht.text, ht.back⟩
    simp only [Hall.put] at hg
    by_cases hj : j = i
    · rw [if_pos hj] at hg; cases hg; exact ht.entries i g h2
    · rw [if_neg hj] at hg; exact ht.entries j g' hg
  | @goes i h1 h2 h3 =>
    refine ⟨.goes (H := read H) h1 h2 h3, fun j g' hg => ?_, ht.text, ht.back⟩
    simp only [Hall.put] at hg
    by_cases hj : j = i
    · rw [if_pos hj] at hg; cases hg
    · rw [if_neg hj] at hg; exact ht.entries j g' hg

theorem performance_read {H H' : Stage (Option Str)} {ms : List Cue} (h : Performance E (store size) stored greeting H ms H') (hm : ∀ i, .key i (.ascii b%'\n') ∉ ms) (ht : Tidy H) : Performance E (remember size) id greeting (read H) ms (read H') := by
  induction h with
  | nil => exact .nil
  | cons h1 _ ih =>
    obtain ⟨k1, k2⟩ := plays_read h1 (fun i e => hm i (by simp [e])) ht
    exact .cons k1 (ih (fun i x => hm i (by simp [x])) k2)

theorem start_tidy (room : Nat) (tty : Bool) (file : Option Str) : Tidy (Stage.start stored room tty file) := by
  refine ⟨fun i g hg => ?_, fun i => by simp [Stage.start, Draft.none, Draft.text, Zip.text], fun i _ _ h => by simp [Stage.start, Draft.none] at h⟩
  simp only [Stage.start, Hall.put] at hg
  by_cases hi : i = 0
  · rw [if_pos hi] at hg
    cases hg
    exact fun c hc => stored_plain _ c (List.mem_of_mem_drop hc)
  · rw [if_neg hi] at hg; cases hg

theorem obscure_read {depth : Nat} {H : Stage (Option Str)} {ms : List Cue} (hm : ∀ i, .key i (.ascii b%'\n') ∉ ms) (ht : Tidy H) (h : Obscure E (store size) stored greeting depth H ms) : Obscure E (remember size) id greeting depth (read H) ms := by
  obtain ⟨a, m, b, H', rfl, h1, h2⟩ := h
  refine ⟨a, m, b, read H', rfl, performance_read h1 (fun i x => hm i (by simp [x])) ht, ?_⟩
  cases m <;> exact h2

/-! ### Runs of the program -/

section
variable {α : Type}

/-- What a run consists of: whether the output is a terminal, the settings of the keyboard, and all that happens. It may end at any time. -/
structure Run (α : Type) where
  tty : Bool
  tt : α
  events : List (Complete.Ev α)

variable (E) (size : Nat) (p : Platform) (manual : α → α) (m n fuel : Nat)

/-- complete.cpp:244-284: a run of the program, with the history file as it was left; the local session has room for `m` lines (269), those of the clients for `n`. -/
def run (r : Run α) (file : Option Str) : Except Fault (Option (Complete.St St (Option Str) α × Option Exn)) :=
  match Local.create (app E (store size) stored false) manual r.tt m (cli file) ⟨⟨false, r.tty, false⟩, []⟩ with
  | .error f => .error f
  | .ok (l, some x) => .ok (some (Complete.start l, some x))
  | .ok (l, none) => Complete.run (app E (store size) stored false) (server n) St.stopped fuel p manual r.events (Complete.start l)

/-- What it is to the users. -/
def cuesOf (r : Run α) (file : Option Str) : List Cue :=
  match Local.create (app E (store size) stored false) manual r.tt m (cli file) ⟨⟨false, r.tty, false⟩, []⟩ with
  | .ok (l, none) => script E (store size) stored p manual n fuel r.events (Complete.start l)
  | _ => []

/-- One run after the other: the history file, and the exception that has left one of them. -/
def runs : List (Run α) → Option Str → Except Fault (Option (Option Str × Option Exn))
  | [], file => .ok (some (file, none))
  | r :: rs, file =>
    match run E size p manual m n fuel r file with
    | .error f => .error f
    | .ok none => .ok none
    | .ok (some (s, some x)) => .ok (some (s.serv.sh.storage, some x))
    | .ok (some (s, none)) => runs rs s.serv.sh.storage

def scripts : List (Run α) → Option Str → List (Bool × List Cue)
  | [], _ => []
  | r :: rs, file => (r.tty, cuesOf E size p manual m n fuel r file) ::
    match run E size p manual m n fuel r file with
    | .ok (some (s, none)) => scripts rs s.serv.sh.storage
    | _ => []

/-- The conditions of C132 for a run; and no client has sent the end of a line in the middle of a line (`C133_refuted`). -/
structure Fair (r : Run α) (file : Option Str) : Prop where
  proper : ∀ e ∈ r.events, Proper e
  line : ∀ i, Cue.key i (.ascii b%'\n') ∉ cuesOf E size p manual m n fuel r file
  clear : ¬ Obscure E (remember size) id welcome fuel (Stage.start id m r.tty (stored file)) (cuesOf E size p manual m n fuel r file)

/-- All runs are so. -/
def AllFair : List (Run α) → Option Str → Prop
  | [], _ => True
  | r :: rs, file => Fair E size p manual m n fuel r file ∧ ∀ s, run E size p manual m n fuel r file = .ok (some (s, none)) → AllFair rs s.serv.sh.storage

theorem run_days (hq : Quiet E) (r : Run α) (file : Option Str) (hf : Fair E size p manual m n (fuel + 2) r file) :
    run E size p manual m n (fuel + 2) r file = .ok none ∨
    ∃ s H, run E size p manual m n (fuel + 2) r file = .ok (some (s, none)) ∧ Performance E (remember size) id welcome (Stage.start id m r.tty (stored file)) (cuesOf E size p manual m n (fuel + 2) r file) (read H) ∧ Looks2 H s := by
  obtain ⟨l, k1, k2⟩ := local_starts (store := store size) (stored := stored) E manual m r.tty file r.tt
  obtain ⟨h1, h3, h4⟩ := hf
  rw [← greeting_welcome] at h4 ⊢
  have ec : cuesOf E size p manual m n (fuel + 2) r file = script E (store size) stored p manual n (fuel + 2) r.events (Complete.start l) := by unfold cuesOf; rw [k1]
  have er : run E size p manual m n (fuel + 2) r file = Complete.run (app E (store size) stored false) (server n) St.stopped (fuel + 2) p manual r.events (Complete.start l) := by unfold run; rw [k1]
  rw [ec] at h3 h4 ⊢
  rw [er]
  rcases run_fits E p manual n hq fuel r.events k2 h1 (fun x => h4 (obscure_read h3 (start_tidy m r.tty file) x)) with h | ⟨s, H, e1, e2, e3⟩
  · exact .inl h
  · exact .inr ⟨s, H, e1, performance_read e2 h3 (start_tidy m r.tty file), fits_looks e3⟩

/-- **C133** (partial) The program `complete` is run any number of times, with the same history file; each run begins with the lines that the run before has left, and everything in it is as C132 says: the histories of its sessions begin with the latest of these
    lines, those of the sessions that end are added, and the latest lines are kept. Missing: what is missing in C132; clients that send the end of a line in the middle of a line (`C133_refuted`); several programs that use the file at the same time
    (C85); the end of a run while the file is being written (C32). -/
theorem C133_days_partial (hq : Quiet E) : ∀ (rs : List (Run α)) (file : Option Str), AllFair E size p manual m n (fuel + 2) rs file →
    runs E size p manual m n (fuel + 2) rs file = .ok none ∨
    ∃ file', runs E size p manual m n (fuel + 2) rs file = .ok (some (file', none)) ∧ Days E size m welcome (stored file) (scripts E size p manual m n (fuel + 2) rs file) (stored file')
  | [], file, _ => .inr ⟨file, rfl, .nil⟩
  | r :: rs, file, hf => by
    rcases run_days E size p manual m n fuel hq r file hf.1 with h | ⟨s, H, e1, e2, e3⟩
    · exact .inl (by simp only [runs, h])
    · have hst : (read H).hall.storage = stored s.serv.sh.storage := by rw [e3.storage]; rfl
      rcases C133_days_partial hq rs s.serv.sh.storage (hf.2 s e1) with h | ⟨file', k1, k2⟩
      · exact .inl (by simp only [runs, e1, h])
      · refine .inr ⟨file', by simp only [runs, e1, k1], ?_⟩
        simp only [scripts, e1]
        exact .cons e2 (hst ▸ k2)

/-- **C133** (partial) In a run, what is on the screens at any time is what C132 says, for histories that begin with the lines in the file. -/
theorem C133_run_partial (hq : Quiet E) (r : Run α) (file : Option Str) (hf : Fair E size p manual m n (fuel + 2) r file) :
    run E size p manual m n (fuel + 2) r file = .ok none ∨
    ∃ s H, run E size p manual m n (fuel + 2) r file = .ok (some (s, none)) ∧ Performance E (remember size) id welcome (Stage.start id m r.tty (stored file)) (cuesOf E size p manual m n (fuel + 2) r file) (read H) ∧ Looks2 H s :=
  run_days E size p manual m n fuel hq r file hf

end

/-! ### Examples -/

/-- The file after these runs; there is room for so many lines in it. -/
def lives (size : Nat) (rs : List (List (Complete.Ev Bool))) : Option (Option Str) :=
  match runs one size Props.plat (fun _ => false) 9 9 99 (rs.map fun es => ⟨false, true, es⟩) none with
  | .ok (some (file, none)) => some file
  | _ => none

/-- What the local user sees in a run after these. -/
def sees (rs : List (List (Complete.Ev Bool))) (es : List (Complete.Ev Bool)) : Option Str :=
  match lives 1000 rs with
  | none => none
  | some file =>
    match run one 1000 Props.plat (fun _ => false) 9 9 99 ⟨false, true, es⟩ file with
    | .ok (some (s, none)) => some s.loc.proc.w.io.out
    | _ => none

/-- A run: a client enters `color` and `exit`, the local user `sub`, `hello` and `exit`; the client's session ends first. -/
def monday : List (Complete.Ev Bool) := joins ++ types bs!"sub\n" ++ [.done] ++ types bs!"hello\n" ++ [.done] ++ sends 0 bs!"color\r\nexit\r\n" 12 ++ types bs!"exit\n"

/-- What is remembered after it; and, if there is room for three lines only, after another in which the local user enters `! 1` and presses Ctrl-D. -/
example : lives 1000 [monday] = some (some bs!"color\nexit\nsub\nhello\nexit\n") ∧ lives 3 [monday, types bs!"! 1\n" ++ [.done] ++ types [4]] = some (some bs!"exit\nexit\nhello\n") := by decide +kernel

/-- In the next run, `! 0` is what the client has entered in the last. -/
example : sees [joins ++ sends 0 bs!"color\r\nexit\r\n" 13] (types bs!"! 0\n") = some bs!"cli> ! 0\r\nColors ON\n\x1b[32m\x1b[1mcli\x1b[0m> " := by decide +kernel

/-- The lines of `Spec.Diary.remember`, for the first of these. -/
example : remember 1000 (remember 1000 [] [bs!"color", bs!"exit"]) [bs!"sub", bs!"hello", bs!"exit"] = stored (some bs!"color\nexit\nsub\nhello\nexit\n") := by decide +kernel

/-- **C133** (refuted) A client sends a line with the byte LF in it (genericasioremotecli.h:484 is a comment, so LF is a character like any other): it is one entry of the history of the session, but two of those that are remembered. -/
theorem C133_refuted : lives 1000 [joins ++ sends 0 bs!"x\ny\r\nexit\r\n" 10] = some (some bs!"x\ny\nexit\n") ∧ stored (some bs!"x\ny\nexit\n") = [bs!"x", bs!"y", bs!"exit"] ∧
    remember 1000 [] [bs!"x\ny", bs!"exit"] = [bs!"x\ny", bs!"exit"] := by decide +kernel

/-- **C133** (refuted) … so that a client can have any line remembered, even one that is never kept otherwise: after `! 1` has been planted as the entry 1, the local user of the next run who enters `! 1` exhausts the stack. -/
theorem C133_planted_refuted : lives 1000 [joins ++ sends 0 bs!"x\n! 1\r\nexit\r\n" 13] = some (some bs!"x\n! 1\nexit\n") ∧ sees [joins ++ sends 0 bs!"x\n! 1\r\nexit\r\n" 13] (types bs!"! 1") = some bs!"cli> ! 1" ∧
    (match run one 1000 Props.plat (fun _ => false) 9 9 99 ⟨false, true, types bs!"! 1\n"⟩ (some bs!"x\n! 1\nexit\n") with | .error f => some f | .ok _ => none) = some .stackOverflow := by decide +kernel

/-! ### The hypotheses can be met -/

/-- The local user is in the main menu, and has typed this. -/
def Alone {τ : Type} (H : Stage τ) (t : Str) : Prop := H.typing 0 = ⟨⟨t.reverse, []⟩, none⟩ ∧ ∃ g, H.hall.chairs 0 = .guest g ∧ g.place = .root ∧ g.book.room = 9

theorem alone_char {H : Stage (List Str)} {t : Str} {c : Byte} {ms : List Cue} (h : Alone H t) (hc : c ≠ 9)
    (h2 : ∀ H', Alone H' (t ++ [c]) → ¬ Obscure one (remember 5) id welcome 99 H' ms) : ¬ Obscure one (remember 5) id welcome 99 H (.key 0 (.ascii c) :: ms) := by
  obtain ⟨h1, g, h3, h4, h5⟩ := h
  refine obscure_cons ?_ fun H' hp => h2 H' ?_
  · rintro (k | ⟨_, _, k, _⟩)
    · exact k g h3
    · exact hc k
  · cases hp with
    | press k1 k2 k3 =>
      rw [h3] at k2
      cases k2
      obtain ⟨z, b, s', hz⟩ : ∃ z b s', H.desk 0 g = ⟨s', z, b⟩ := ⟨_, _, _, rfl⟩
      have e1 : z = (H.typing 0).line := by have := congrArg Desk.line hz; exact this.symm
      have e2 : b = (H.typing 0).back := by have := congrArg Desk.back hz; exact this.symm
      have e3 : s' = H.hall.seat g := by have := congrArg Desk.seat hz; exact this.symm
      rw [hz] at k3
      cases k3 with
      | first k => rcases k with k | k <;> cases k
      | last k => rcases k with k | k <;> cases k
      | char _ =>
        refine ⟨?_, ?_⟩
        · simp only [Stage.write]
          rw [if_pos trivial, e1, e2, h1]; simp
        · simp only [Hall.put]
          exact ⟨_, if_pos trivial, by rw [e3]; exact h4, by rw [e3]; exact h5⟩
      | tabNone _ => exact absurd rfl hc
      | tabOne _ => exact absurd rfl hc
      | tabMore _ _ _ => exact absurd rfl hc
      | tabList _ _ _ => exact absurd rfl hc

theorem alone_start (lines : List Str) : Alone (Stage.start id 9 true lines) [] := ⟨rfl, _, rfl, rfl, rfl⟩

/-- Two runs: in the first the local user enters `hello` and presses Ctrl-D, in the second the arrow up. -/
def week : List (Run Bool) := [⟨true, false, types bs!"hello\n" ++ [.done] ++ types [4]⟩, ⟨true, false, Ensemble.stroke bs!"\x1b[A"⟩]

example : Quiet one ∧ AllFair one 5 Props.plat (fun _ => false) 9 9 99 week none ∧
    scripts one 5 Props.plat (fun _ => false) 9 9 99 week none = [(true, [.key 0 (.ascii 104), .key 0 (.ascii 101), .key 0 (.ascii 108), .key 0 (.ascii 108), .key 0 (.ascii 111), .key 0 .ret, .key 0 .eof]), (true, [.key 0 .up])] := by
  have hline : Lex.Line bs!"hello" [bs!"hello"] := (split_iff _ _).1 rfl
  have hd : ∀ s : Seat, Does one s .root [bs!"hello"] (.says bs!"Hello, world\n") := fun s => .here (does := plain (.says bs!"Hello, world\n")) (by simp [rows]) ⟨rfl, rfl⟩
  have hn : ¬ Bang bs!"hello" := by
    rintro ⟨n, a, h, _⟩
    exact absurd (congrArg List.head? (line_same hline h)) (by simp)
  have hf : ∀ s : Seat, s.place = .root → ¬ Fails one s bs!"hello" := by
    intro s hs h
    cases h with
    | sum h => exact not_over hline (show Does one (s.recorded _) (s.recorded _).place _ _ by rw [show (s.recorded _).place = .root from hs]; exact hd _) (by simp) h
    | again h => exact hn ⟨_, h⟩
    | empty h => exact hn h
  have c1 : cuesOf one 5 Props.plat (fun _ => false) 9 9 99 ⟨true, false, types bs!"hello\n" ++ [.done] ++ types [4]⟩ none = [.key 0 (.ascii 104), .key 0 (.ascii 101), .key 0 (.ascii 108), .key 0 (.ascii 108), .key 0 (.ascii 111), .key 0 .ret, .key 0 .eof] := by decide +kernel
  have c2 : cuesOf one 5 Props.plat (fun _ => false) 9 9 99 ⟨true, false, Ensemble.stroke bs!"\x1b[A"⟩ (some bs!"hello\n") = [.key 0 .up] := by decide +kernel
  have hr : (match run one 5 Props.plat (fun _ => false) 9 9 99 ⟨true, false, types bs!"hello\n" ++ [.done] ++ types [4]⟩ none with | .ok (some (s, none)) => some s.serv.sh.storage | _ => none) = some (some bs!"hello\n") := by decide +kernel
  refine ⟨quiet_one, ⟨⟨?_, ?_, ?_⟩, fun s hs => ⟨⟨?_, ?_, ?_⟩, fun _ _ => trivial⟩⟩, ?_⟩
  · intro e he
    simp only [types, Props.strikes, List.mem_append, List.mem_cons, List.mem_map, List.mem_flatMap, List.not_mem_nil, or_false] at he
    rcases he with ((⟨a, _, rfl | rfl | rfl | rfl | rfl⟩ | ⟨a, _, rfl⟩) | rfl) | (⟨a, _, rfl | rfl | rfl | rfl | rfl⟩ | ⟨a, _, rfl⟩) <;> simp [Ensemble.Proper, Reached, OneThread]
  · rw [c1]; simp
  · rw [c1]
    refine alone_char (alone_start _) (by decide) fun _ hb => alone_char hb (by decide) fun _ hb => alone_char hb (by decide) fun _ hb => alone_char hb (by decide) fun _ hb => alone_char hb (by decide) fun H5 hb => obscure_cons ?_ fun H6 k6 => obscure_cons ?_ fun _ _ => obscure_nil
    · obtain ⟨h1, g, b1, b2, _⟩ := hb
      rintro (k | ⟨g', k, k'⟩)
      · exact k g b1
      · rw [b1] at k; cases k
        have : (H5.desk 0 g).text = bs!"hello" := by simp only [Stage.desk, Desk.text]; rw [h1]; rfl
        simp only [Unsaid, this] at k'
        exact k'.elim (hf _ b2) fun k => k (.plain (by unfold Readable; decide) hn)
    · have ht : (H5.typing 0).text = bs!"hello" := by rw [hb.1]; rfl
      cases k6 with
      | press _ _ k => exact absurd k (not_pressed _)
      | answer _ _ _ _ _ =>
        rintro (k | ⟨_, _, k⟩)
        · exact k _ rfl
        · exact k
      | quits _ _ k =>
        rw [ht] at k
        cases k with
        | exit h => exact absurd (line_same hline h) (by decide)
        | again h => exact absurd ⟨_, h⟩ hn
  · intro e he
    simp only [Ensemble.stroke, List.mem_append, List.mem_cons, List.mem_map, List.not_mem_nil, or_false] at he
    rcases he with ((⟨a, _, rfl⟩ | rfl | rfl) | ⟨a, _, rfl⟩) | rfl | rfl <;> simp [Ensemble.Proper, Reached, OneThread]
  all_goals try (have hst : s.serv.sh.storage = some bs!"hello\n" := by rw [hs] at hr; exact Option.some.inj hr)
  · rw [hst, c2]; simp
  · rw [hst, c2]
    refine obscure_cons ?_ fun _ _ => obscure_nil
    rintro (k | ⟨g, k, k'⟩)
    · exact k _ rfl
    · cases k; cases k'
  · decide +kernel

end Verif.Showcase.Diary
