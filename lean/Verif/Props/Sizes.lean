import Verif.Props.Saved
import Verif.Props.FileSession
import Verif.Props.AsyncSession

/-!
# C21, C56, C72: how many commands a session remembers
-/

set_option linter.unusedSimpArgs false

namespace Verif.Props
open Verif.History Verif.HistoryList Verif.Spec Verif.FileSession

/-- A valid history for `m` commands. -/
structure Sized (m : Nat) (h : History.History) : Prop where
  wf : WF h
  size : h.maxSize = m

theorem sized_new {m : Nat} {h h1 : History.History} {line : Str} (hh : Sized m h) (hn : History.newCommand h line = .ok h1) : Sized m h1 ∧ h1.mode = .inserting := by
  obtain ⟨_, a, b1, b2, b3, _⟩ := History.newCommand_ok hh.wf line
  rw [a] at hn; cases hn
  exact ⟨⟨b1, b2.trans hh.size⟩, b3⟩

variable {σ τ : Type} (A : App σ τ)

theorem feed_sized (m fuel : Nat) (line : Str) (w w' : World σ τ) (x : Option Exn) (hh : Sized m w.hist) (h : feed A fuel line w = .ok (w', x)) : Sized m w'.hist := by
  induction fuel generalizing line w w' x with
  | zero => cases h
  | succ fuel ih =>
    obtain ⟨toks, hl⟩ := line_exists line
    by_cases ht : toks = []
    · subst ht; rw [feed_blank A hl] at h; cases h; exact hh
    · obtain ⟨h1, a1, ⟨hnb, hr⟩ | ⟨n, h2, hb, a2, hr⟩⟩ := feed_level (closed_hist A) fuel hl ht w w' x h
      · rw [hr]; exact (sized_new hh a1).1
      · have c1 := sized_new hh a1
        obtain ⟨d1, d2, _⟩ := History.forget_wf c1.1.wf c1.2 a2
        have c2 : Sized m h2 := ⟨d1, d2.trans c1.1.size⟩
        rcases hr with ⟨_, hr⟩ | ⟨c, w2, x2, _, hfd, hr⟩
        · rw [hr]; exact c2
        · rw [hr]; exact ih c _ w2 x2 c2 hfd

theorem exec_sized {m : Nat} (hm : 1 ≤ m) {OK : Act → Prop} {Shown : Str → Prop} {w w' : World σ τ} (hh : Sized m w.hist) (h : Exec A OK Shown w w') : Sized m w'.hist := by
  induction h with
  | refl => exact hh
  | feed _ hf ih => exact feed_sized A m _ _ _ _ _ ih hf
  | act a _ _ ih => rw [(act_same _ a).1.hist]; exact ih
  | prompt _ hq ih =>
    unfold Verif.prompt at hq
    split at hq
    · cases hq; exact ih
    · split at hq
      · cases hq; exact ih
      · cases hq
  | enter _ ih => rw [closed_enter (closed_hist A)]; exact ih
  | exit _ hx ih => rw [closed_exit (closed_hist A) _ _ _ hx]; exact ih
  | up _ hs hp ih =>
    obtain ⟨_, _, a1, a2, a3, _⟩ := History.previous_ok ih.wf (by rw [ih.size]; exact hm) _
    rw [hp] at a1; cases a1
    exact ⟨a2, a3.trans ih.size⟩
  | down _ hp ih =>
    obtain ⟨_, _, a1, a2, a3, _⟩ := History.next_ok ih.wf
    rw [hp] at a1; cases a1
    exact ⟨a2, a3.trans ih.size⟩

theorem sized_listing {m : Nat} {h : History.History} (hh : Sized m h) : (listing h).length ≤ m := by
  have := hh.wf.bound
  rw [hh.size] at this
  simpa [listing, length_number] using this

theorem sized_start (n : Nat) (w0 : World σ τ) (io : Io) : Sized n (newSession A n w0 io).hist :=
  ⟨(C33_new_session_ready n (A.stored w0.storage)).1, (C33_new_session_ready n (A.stored w0.storage)).2.2.1⟩

/-- **C21** In a session the command `history` never lists more commands than the session was constructed for, whatever is typed, browsed, executed again or done by handlers. -/
theorem C21_session {OK : Act → Prop} {Shown : Str → Prop} (n : Nat) (hn : 1 ≤ n) (w0 w : World σ τ) (io : Io) (h : Exec A OK Shown (newSession A n w0 io) w) : (listing w.hist).length ≤ n :=
  sized_listing (exec_sized A hn (sized_start A n w0 io) h)

/-- **C56** A file session remembers at most one command (clifilesession.h:46). -/
theorem C56_one_command {OK : Act → Prop} {Shown : Str → Prop} (i : In) (g : Bool) (w0 : World σ τ) (io : Io) (w1 w : World (σ × Bool) τ) (B : App (σ × Bool) τ) (hc : create A i g w0 io = .ok w1) (h : Exec B OK Shown w1 w) :
    (listing w.hist).length ≤ 1 := by
  refine sized_listing (exec_sized B (Nat.le_refl 1) ?_ h)
  unfold create at hc
  split at hc
  · cases hc
  · split at hc
    · cases hc
    · cases hc
      exact sized_start A 1 w0 io

theorem executes_sized {m fuel : Nat} {w w' : World σ τ} {ls : List Str} (hh : Sized m w.hist) (h : Executes A fuel w ls w') : Sized m w'.hist := by
  induction h with
  | nil => exact hh
  | line h1 h2 _ ih =>
    apply ih
    have := feed_sized A m _ _ _ _ _ hh h1
    unfold Verif.prompt at h2
    split at h2
    · cases h2; exact this
    · split at h2
      · cases h2; exact this
      · cases h2

example : ∃ w1, create Sample.app (.of []) true Sample.world Sample.io = .ok w1 ∧ ∃ w2 w3, feed onFile 3 bs!"sub go" w1 = .ok (w2, none) ∧ feed onFile 3 bs!"any 1" w2 = .ok (w3, none) ∧ listing w3.hist = [(1, bs!"any 1")] :=
  ⟨_, rfl, _, _, rfl, rfl, rfl⟩

/-- **C72** An asynchronous session remembers at most one command (genericcliasyncsession.h:47). -/
theorem C72_one_command (fuel : Nat) (w : World σ τ) (io : Io) (s0 s : Async.St σ τ) (es : List Async.Ev) (x : Option Exn) (h0 : Async.create A w io = .ok s0) (hd : .destroy ∉ es) (h : Async.run A fuel es s0 = .ok (s, x)) : (listing s.w.hist).length ≤ 1 := by
  have hs : Sized 1 s0.w.hist := by
    unfold Async.create Async.read at h0
    split at h0
    · cases h0
    · rename_i w1 hq
      cases h0
      unfold Verif.prompt at hq
      split at hq
      · cases hq; exact sized_start A 1 w io
      · split at hq
        · cases hq; exact sized_start A 1 w io
        · cases hq
  obtain ⟨_, _, _, _, h1, h2⟩ := C72_lines A fuel w io s0 s es x h0 hd h
  cases x with
  | none => exact sized_listing (executes_sized A hs (h1 rfl))
  | some e =>
    obtain ⟨_, _, _, _, h3, h4⟩ := h2 e rfl
    exact sized_listing (feed_sized A 1 _ _ _ _ _ (executes_sized A hs h3) h4)

example : ∃ s0, Async.create Sample.app Sample.world Sample.io = .ok s0 ∧ ∃ s, Async.run Sample.app 3 [.data bs!"sub go\nany 1\n", .line, .line] s0 = .ok (s, none) ∧ listing s.w.hist = [(1, bs!"any 1")] :=
  ⟨_, rfl, _, rfl, rfl⟩

end Verif.Props
