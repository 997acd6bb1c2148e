import Verif.Model.AsyncSession
import Verif.Props.FileSession

set_option linter.unusedSimpArgs false

/-!
# Properties C72, C73: asynchronous sessions
-/

namespace Verif.Props
open Spec Async
open FileSession (cut)

variable {σ τ : Type}

/-! ### C72 -/

/-- The lines are executed one after the other, each followed by a prompt. -/
inductive Executes (A : App σ τ) (fuel : Nat) : World σ τ → List Str → World σ τ → Prop
  | nil {w} : Executes A fuel w [] w
  | line {w w1 w2 w3 l ls} : feed A fuel l w = .ok (w1, none) → prompt w1 = .ok w2 → Executes A fuel w2 ls w3 → Executes A fuel w (l :: ls) w3

theorem Executes.snoc {A : App σ τ} {fuel : Nat} {w w1 w2 w3 : World σ τ} {ls : List Str} {l : Str} (h : Executes A fuel w ls w1) (h1 : feed A fuel l w1 = .ok (w2, none)) (h2 : prompt w2 = .ok w3) :
    Executes A fuel w (ls ++ [l]) w3 := by
  induction h with
  | nil => exact .line h1 h2 .nil
  | line a b _ ih => exact .line a b (ih h1)

theorem Executes.unique {A : App σ τ} {fuel : Nat} {w w1 w2 : World σ τ} {ls : List Str} (h : Executes A fuel w ls w1) (h2 : Executes A fuel w ls w2) : w1 = w2 := by
  induction h with
  | nil => cases h2; rfl
  | line a b _ ih =>
    cases h2 with
    | line a' b' c' =>
      rw [a] at a'; cases a'
      rw [b] at b'; cases b'
      exact ih c'

theorem cut_none_iff {s : Str} : cut s = none ↔ b%'\n' ∉ s := by
  constructor
  · intro h hm
    induction s with
    | nil => cases hm
    | cons c s ih =>
      simp only [cut] at h
      split at h
      · cases h
      · rename_i hc
        simp only [Option.map_eq_none_iff] at h
        rcases List.mem_cons.1 hm with hm | hm
        · exact hc hm.symm
        · exact ih h hm
  · exact cut_none

theorem lines_cut {d l r : Str} {ls : List Str} {rest : Str} (h : Lines d ls rest) (hc : cut d = some (l, r)) : ∃ more, ls = l :: more ∧ Lines r more rest := by
  cases ls with
  | nil =>
    have := h.text
    simp at this
    rw [this, cut_none h.rest] at hc
    cases hc
  | cons l' more =>
    have := h.text
    rw [List.flatMap_cons, List.append_assoc, List.append_assoc] at this
    rw [this] at hc
    have hl := h.lines l' (by simp)
    rw [show l' ++ ([b%'\n'] ++ (more.flatMap (fun l => l ++ [b%'\n']) ++ rest)) = l' ++ b%'\n' :: (more.flatMap (fun l => l ++ [b%'\n']) ++ rest) from rfl, cut_some hl] at hc
    cases hc
    exact ⟨more, rfl, rfl, fun x hx => h.lines x (by simp [hx]), h.rest⟩

theorem lines_unique {d : Str} {ls ls' : List Str} {rest rest' : Str} (h : Lines d ls rest) (h' : Lines d ls' rest') : ls = ls' ∧ rest = rest' := by
  induction ls generalizing d ls' with
  | nil =>
    have h1 : d = rest := by simpa using h.text
    have hn : cut d = none := by rw [h1]; exact cut_none h.rest
    cases ls' with
    | nil => exact ⟨rfl, by rw [← h1]; simpa using h'.text⟩
    | cons l ls' =>
      have := h'.text
      rw [cut_none_iff, this] at hn
      simp at hn
  | cons l ls ih =>
    have hc : cut d = some (l, ls.flatMap (fun l => l ++ [b%'\n']) ++ rest) := by
      rw [h.text, List.flatMap_cons, List.append_assoc, List.append_assoc]
      exact cut_some (h.lines l (by simp)) _
    obtain ⟨more, rfl, h3⟩ := lines_cut h' hc
    obtain ⟨h4, h5⟩ := ih ⟨rfl, fun x hx => h.lines x (by simp [hx]), h.rest⟩ h3
    exact ⟨by rw [h4], h5⟩

/-- What has been read consists of the lines executed and what is in the buffer. -/
def Split (s : St σ τ) : Prop := ∃ more rest, Lines s.buf more rest ∧ Lines s.got (s.fed ++ more) rest

theorem read_ok {s s' : St σ τ} (h : Async.read s = .ok s') : ∃ w, prompt s.w = .ok w ∧ s' = { s with w := w, reading := true } := by
  unfold Async.read at h
  split at h
  · cases h
  · cases h; exact ⟨_, ‹_›, rfl⟩

/-- One event, as long as the session lives. -/
theorem async_step {A : App σ τ} {fuel : Nat} {s s' : St σ τ} {e : Async.Ev} {x : Option Exn} (hs : Split s) (hl : s.live = true) (he : e ≠ .destroy) (h : Async.step A fuel s e = .ok (s', x)) :
    Split s' ∧ s'.live = true ∧
    ((s'.fed = s.fed ∧ s'.w = s.w ∧ x = none ∧ (s'.reading = s.reading ∨ e = .fail)) ∨
     (∃ l w1, s.reading = true ∧ s'.fed = s.fed ++ [l] ∧ feed A fuel l s.w = .ok (w1, x) ∧ (∀ e, x = some e → s'.w = w1) ∧ (x = none → prompt w1 = .ok s'.w ∧ s'.reading = true))) := by
  obtain ⟨more, rest, h1, h2⟩ := hs
  cases e with
  | data t =>
    simp only [Async.step] at h
    split at h
    · rename_i hc
      cases h
      refine ⟨?_, hl, .inl ⟨rfl, rfl, rfl, .inl rfl⟩⟩
      have hm : more = [] := by
        cases more with
        | nil => rfl
        | cons l more =>
          have := h1.text
          have hn := (cut_none_iff.1 hc.2.2)
          rw [this] at hn
          simp at hn
      subst hm
      have hb : s.buf = rest := by simpa using h1.text
      obtain ⟨ls, r, hd⟩ := lines_total (s.buf ++ t)
      refine ⟨ls, r, hd, ?_, ?_, hd.rest⟩
      · show s.got ++ t = _
        rw [h2.text, List.flatMap_append, List.flatMap_append, List.append_assoc, List.append_assoc, List.flatMap_nil, List.nil_append, ← hb, List.append_assoc, ← hd.text]
      · intro l hm
        rcases List.mem_append.1 hm with hm | hm
        · exact h2.lines l (by simp [hm])
        · exact hd.lines l hm
    · cases h
      exact ⟨⟨more, rest, h1, h2⟩, hl, .inl ⟨rfl, rfl, rfl, .inl rfl⟩⟩
  | line =>
    simp only [Async.step] at h
    split at h
    · rename_i hr
      split at h
      · cases h; exact ⟨⟨more, rest, h1, h2⟩, hl, .inl ⟨rfl, rfl, rfl, .inl rfl⟩⟩
      · rename_i l r hc
        simp only [hl, if_true] at h
        obtain ⟨more', rfl, h3⟩ := lines_cut h1 hc
        have h4 : Lines s.got (s.fed ++ [l] ++ more') rest := by rw [List.append_assoc]; exact h2
        split at h
        · cases h
        · rename_i w1 e hf
          cases h
          exact ⟨⟨more', rest, h3, h4⟩, rfl, .inr ⟨l, w1, hr, rfl, hf, fun _ _ => rfl, fun hx => (nomatch hx)⟩⟩
        · rename_i w1 hf
          split at h
          · cases h
          · rename_i s2 h5
            obtain ⟨w2, h6, rfl⟩ := read_ok h5
            cases h
            exact ⟨⟨more', rest, h3, h4⟩, rfl, .inr ⟨l, w1, hr, rfl, hf, fun _ hx => (nomatch hx), fun _ => ⟨h6, rfl⟩⟩⟩
    · cases h; exact ⟨⟨more, rest, h1, h2⟩, hl, .inl ⟨rfl, rfl, rfl, .inl rfl⟩⟩
  | fail =>
    simp only [Async.step, hl, if_true] at h
    split at h
    · cases h; exact ⟨⟨more, rest, h1, h2⟩, rfl, .inl ⟨rfl, rfl, rfl, .inr rfl⟩⟩
    · cases h; exact ⟨⟨more, rest, h1, h2⟩, hl, .inl ⟨rfl, rfl, rfl, .inl rfl⟩⟩
  | destroy => exact absurd rfl he

theorem async_run {A : App σ τ} {fuel : Nat} (es : List Async.Ev) : ∀ {s s' : St σ τ} {x : Option Exn}, Split s → s.live = true → .destroy ∉ es → Async.run A fuel es s = .ok (s', x) →
    Split s' ∧ s'.live = true ∧ (x = none → .fail ∉ es → s.reading = true → s'.reading = true) ∧
    ∃ ls, s'.fed = s.fed ++ ls ∧ (x = none → Executes A fuel s.w ls s'.w) ∧
      ∀ e, x = some e → ∃ ls' l w1, ls = ls' ++ [l] ∧ Executes A fuel s.w ls' w1 ∧ feed A fuel l w1 = .ok (s'.w, some e) := by
  induction es with
  | nil =>
    intro s s' x hs hl _ h
    cases h
    exact ⟨hs, hl, fun _ _ h => h, [], by simp, fun _ => .nil, fun _ hx => (nomatch hx)⟩
  | cons e es ih =>
    intro s s' x hs hl hd h
    simp only [List.mem_cons, not_or] at hd
    simp only [Async.run] at h
    split at h
    · cases h
    · rename_i s1 e1 h1
      cases h
      obtain ⟨a1, a2, a3⟩ := async_step hs hl (Ne.symm hd.1) h1
      refine ⟨a1, a2, fun hx => (nomatch hx), ?_⟩
      rcases a3 with ⟨_, _, hx, _⟩ | ⟨l, w1, _, b1, b2, b3, _⟩
      · cases hx
      · refine ⟨[l], b1, fun hx => (nomatch hx), fun e he => ⟨[], l, s.w, rfl, .nil, ?_⟩⟩
        cases he
        rw [b3 _ rfl]; exact b2
    · rename_i s1 h1
      obtain ⟨a1, a2, a3⟩ := async_step hs hl (Ne.symm hd.1) h1
      obtain ⟨c1, c2, c3, ls, c4, c5, c6⟩ := ih a1 a2 hd.2 h
      rcases a3 with ⟨b1, b2, _, b3⟩ | ⟨l, w1, b0, b1, b2, _, b3⟩
      · rw [b2] at c5 c6
        rw [b1] at c4
        refine ⟨c1, c2, fun hx hf hr => ?_, ls, c4, c5, c6⟩
        simp only [List.mem_cons, not_or] at hf
        rcases b3 with b3 | b3
        · exact c3 hx hf.2 (b3.trans hr)
        · exact absurd b3.symm hf.1
      · obtain ⟨b4, b5⟩ := b3 rfl
        refine ⟨c1, c2, fun hx hf _ => c3 hx (fun hm => hf (by simp [hm])) b5, l :: ls, by rw [c4, b1]; simp, fun hx => .line b2 b4 (c5 hx), fun e he => ?_⟩
        obtain ⟨ls', l', w2, d1, d2, d3⟩ := c6 e he
        exact ⟨l :: ls', l', w2, by rw [d1]; rfl, .line b2 b4 d2, d3⟩

/-- **C72** An asynchronous session executes the lines of its input that are ended by a newline, in order, each once and followed by a prompt, however the input is cut into portions; at any time those executed are the
    first ones of all the lines received. An exception that leaves `Feed` leaves the scheduler in the course of the last one. -/
theorem C72_lines (A : App σ τ) (fuel : Nat) (w : World σ τ) (io : Io) (s0 s : St σ τ) (es : List Async.Ev) (x : Option Exn) (h0 : Async.create A w io = .ok s0) (hd : .destroy ∉ es)
    (h : Async.run A fuel es s0 = .ok (s, x)) :
    ∃ ls rest, Lines s.got ls rest ∧ s.fed = ls.take s.fed.length ∧ (x = none → Executes A fuel s0.w s.fed s.w) ∧
      ∀ e, x = some e → ∃ ls' l w1, s.fed = ls' ++ [l] ∧ Executes A fuel s0.w ls' w1 ∧ feed A fuel l w1 = .ok (s.w, some e) := by
  obtain ⟨w0, _, rfl⟩ := read_ok h0
  obtain ⟨⟨more, rest, _, a2⟩, _, _, ls, b1, b2, b3⟩ := async_run es (s := { w := w0, buf := [], reading := true, live := true, got := [], fed := [] })
    ⟨[], [], ⟨rfl, by simp, by simp⟩, ⟨rfl, by simp, by simp⟩⟩ rfl hd h
  replace b1 : s.fed = ls := by simpa using b1
  subst b1
  exact ⟨_, rest, a2, by simp, b2, b3⟩

/-- **C72** As long as the input has not ended, a line that has been received is executed when the scheduler calls the handler, which it is bound to do. -/
theorem C72_next (A : App σ τ) (fuel : Nat) (w : World σ τ) (io : Io) (s0 s : St σ τ) (es : List Async.Ev) (h0 : Async.create A w io = .ok s0) (hd : .destroy ∉ es) (hf : .fail ∉ es)
    (h : Async.run A fuel es s0 = .ok (s, none)) (ls : List Str) (rest : Str) (hls : Lines s.got ls rest) (l : Str) (more : List Str) (hm : ls = s.fed ++ l :: more) :
    Async.step A fuel s .line = (match feed A fuel l s.w with
      | .error f => .error f
      | .ok (w1, some e) => .ok ({ s with w := w1, buf := more.flatMap (fun l => l ++ [b%'\n']) ++ rest, reading := false, fed := s.fed ++ [l] }, some e)
      | .ok (w1, none) => match prompt w1 with
        | .error f => .error f
        | .ok w2 => .ok ({ s with w := w2, buf := more.flatMap (fun l => l ++ [b%'\n']) ++ rest, fed := s.fed ++ [l] }, none)) := by
  obtain ⟨w0, _, rfl⟩ := read_ok h0
  obtain ⟨⟨more', rest', a1, a2⟩, a3, a4, _⟩ := async_run es (s := { w := w0, buf := [], reading := true, live := true, got := [], fed := [] })
    ⟨[], [], ⟨rfl, by simp, by simp⟩, ⟨rfl, by simp, by simp⟩⟩ rfl hd h
  obtain ⟨e1, rfl⟩ := lines_unique hls a2
  rw [hm] at e1
  have e2 := List.append_cancel_left e1
  have hr := a4 rfl hf rfl
  have hc : cut s.buf = some (l, more.flatMap (fun l => l ++ [b%'\n']) ++ rest) := by
    rw [a1.text, ← e2, List.flatMap_cons, List.append_assoc, List.append_assoc]
    exact cut_some (a1.lines l (by rw [← e2]; simp)) _
  simp only [Async.step, hr, if_true, hc, a3]
  cases hfd : feed A fuel l s.w with
  | error f => rfl
  | ok r =>
    obtain ⟨w1, x⟩ := r
    cases x with
    | some e => rfl
    | none =>
      simp only [Async.read]
      cases prompt w1 <;> simp [hr]

/-- **C72** The portions in which the input is read do not matter: two sessions that have read the same and executed all lines received are in the same state. -/
theorem C72_portions (A : App σ τ) (fuel : Nat) (w : World σ τ) (io : Io) (s0 s1 s2 : St σ τ) (es1 es2 : List Async.Ev) (h0 : Async.create A w io = .ok s0) (hd1 : .destroy ∉ es1) (hd2 : .destroy ∉ es2)
    (h1 : Async.run A fuel es1 s0 = .ok (s1, none)) (h2 : Async.run A fuel es2 s0 = .ok (s2, none)) (hg : s1.got = s2.got) (hb1 : b%'\n' ∉ s1.buf) (hb2 : b%'\n' ∉ s2.buf) :
    s1.w = s2.w ∧ s1.fed = s2.fed ∧ s1.buf = s2.buf := by
  obtain ⟨w0, _, rfl⟩ := read_ok h0
  have one : ∀ (es : List Async.Ev) (s : St σ τ), .destroy ∉ es → Async.run A fuel es { w := w0, buf := [], reading := true, live := true, got := [], fed := [] } = .ok (s, none) → b%'\n' ∉ s.buf →
      Lines s.got s.fed s.buf ∧ Executes A fuel w0 s.fed s.w := by
    intro es s hd h hb
    obtain ⟨⟨more, rest, a1, a2⟩, _, _, ls, b1, b2, _⟩ := async_run es (s := { w := w0, buf := [], reading := true, live := true, got := [], fed := [] })
      ⟨[], [], ⟨rfl, by simp, by simp⟩, ⟨rfl, by simp, by simp⟩⟩ rfl hd h
    replace b1 : s.fed = ls := by simpa using b1
    obtain ⟨rfl, rfl⟩ := lines_unique a1 (ls' := []) (rest' := s.buf) ⟨rfl, by simp, hb⟩
    exact ⟨by simpa using a2, b1 ▸ b2 rfl⟩
  obtain ⟨a1, a2⟩ := one es1 s1 hd1 h1 hb1
  obtain ⟨b1, b2⟩ := one es2 s2 hd2 h2 hb2
  rw [hg] at a1
  obtain ⟨e1, e2⟩ := lines_unique a1 b1
  rw [e1] at a2
  exact ⟨a2.unique b2, e1, e2⟩

/-- A new session of the sample application. -/
def async0 : St (List Nat) (List Str) := (Async.create Sample.app Sample.world Sample.io).toOption.getD ⟨Sample.world, [], false, false, [], []⟩

/-- What can be seen of a session. -/
def sight (r : Except Fault (St (List Nat) (List Str) × Option Exn)) : Option ((List Str × List Nat) × (Str × Str) × (Bool × Bool)) :=
  match r with
  | .ok (s, _) => some ((s.fed, s.w.app), (s.buf, s.w.io.out), (s.w.exit, s.reading))
  | .error _ => none

example : (Async.create Sample.app Sample.world Sample.io).toOption.isSome = true := rfl
/-- Two lines and the beginning of a third, in three portions. -/
example : sight (Async.run Sample.app 3 [.data bs!"sub g", .data bs!"o\nany 1\nsu", .line, .data bs!"ignored: a line is waiting", .line, .data bs!"b"] async0) =
    some (([bs!"sub go", bs!"any 1"], [5, 4]), (bs!"sub", bs!"cli> ok\ncli> ok\ncli> "), (false, true)) := by decide +kernel

/-! ### C73 -/

/-- **C73** (part) The command `exit` ends the session as it should: the line is fed like any other, see C57 for what it does. What is missing is the end of the input. -/
theorem C73_exit_partial (A : App σ τ) (fuel : Nat) (s : St σ τ) (rest : Str) (hr : s.reading = true) (hl : s.live = true) (hb : s.buf = bs!"exit\n" ++ rest) (w1 : World σ τ)
    (h1 : feed A fuel bs!"exit" s.w = .ok (w1, none)) (hx : w1.exit = true) :
    ∃ s', Async.step A fuel s .line = .ok (s', none) ∧ s'.w = w1 := by
  have hc : cut s.buf = some (bs!"exit", rest) := by rw [hb]; exact cut_some (l := bs!"exit") (by decide) rest
  refine ⟨{ s with w := w1, buf := rest, reading := true, fed := s.fed ++ [bs!"exit"] }, ?_, rfl⟩
  simp only [Async.step, hr, if_true, hc, hl, h1, Async.read, prompt, hx]

example : sight (Async.run Sample.app 3 [.data bs!"any 1\nexit\n", .line, .line] async0) =
    some (([bs!"any 1", bs!"exit"], [5]), ([], bs!"cli> ok\ncli> "), (true, true)) := by decide +kernel

/-- **C73 refuted** The end of the input does not end the session as `exit` does: no action is called, no history is saved, the flag is not set; nothing of the session's state changes at all. -/
theorem C73_eof_refuted (A : App σ τ) (fuel : Nat) (s s' : St σ τ) (x : Option Exn) (h : Async.step A fuel s .fail = .ok (s', x)) : s'.w = s.w ∧ x = none ∧ s'.fed = s.fed := by
  simp only [Async.step] at h
  split at h
  · split at h
    · cases h; exact ⟨rfl, rfl, rfl⟩
    · cases h
  · cases h; exact ⟨rfl, rfl, rfl⟩

/-- **C73** What the end of the input does: it is noticed when the lines that have arrived have been executed, and after that the session does nothing any more as long as it exists: nothing is read and nothing executed. -/
theorem C73_over (A : App σ τ) (fuel : Nat) (s : St σ τ) (hr : s.reading = true) (hl : s.live = true) (hb : b%'\n' ∉ s.buf) :
    ∃ s1, Async.step A fuel s .fail = .ok (s1, none) ∧ s1.reading = false ∧ s1.w = s.w ∧ s1.fed = s.fed ∧ ∀ es, ∃ s2, Async.run A fuel es s1 = .ok (s2, none) ∧ s2.w = s.w ∧ s2.fed = s.fed ∧ s2.got = s.got := by
  have hc := cut_none_iff.2 hb
  refine ⟨{ s with reading := false }, by simp [Async.step, hr, hc, hl], rfl, rfl, rfl, ?_⟩
  have gen : ∀ (es : List Async.Ev) (t : St σ τ), t.reading = false → ∃ t', Async.run A fuel es t = .ok (t', none) ∧ t'.w = t.w ∧ t'.fed = t.fed ∧ t'.got = t.got := by
    intro es
    induction es with
    | nil => intro t _; exact ⟨t, rfl, rfl, rfl, rfl⟩
    | cons e es ih =>
      intro t ht
      cases e <;> simp only [Async.run, Async.step, ht, Bool.false_eq_true, if_false, false_and]
      · exact ih t ht
      · exact ih t ht
      · exact ih t ht
      · exact ih { t with reading := false, live := false } rfl
  exact fun es => gen es { s with reading := false } rfl

/-- The input ends after a command: the session will read nothing more, the storage is still empty. -/
example : sight (Async.run Sample.app 3 [.data bs!"any 1\n", .line, .fail] async0) = some (([bs!"any 1"], [5]), ([], bs!"cli> ok\ncli> "), (false, false)) := by decide +kernel
example : ∃ r, Async.run Sample.app 3 [.data bs!"any 1\n", .line] async0 = .ok r ∧ ends r.1.w.log = [] ∧ r.1.reading = true ∧ r.1.live = true ∧ b%'\n' ∉ r.1.buf := ⟨_, rfl, rfl, rfl, rfl, by decide⟩

end Verif.Props
