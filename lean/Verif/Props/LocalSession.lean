import Verif.Model.LocalSession
import Verif.Props.Keyboard
import Verif.Props.AfterExit

set_option linter.unusedSimpArgs false

/-!
# Properties C76 (destruction) and C77 (typed lines are executed) of sessions with a keyboard
-/

namespace Verif.Props
open Spec Local
open Keyboard (Kb decode)
open Terminal (Key)

variable {σ τ α : Type}

/-! ### C77 -/

/-- What is typed. -/
def typedBytes : List (Local.Ev α) → Str
  | [] => []
  | .kb (.arrive b) :: es => b :: typedBytes es
  | _ :: es => typedBytes es

/-- The standard input is not closed, no other code reads from it, and the session is not destroyed. -/
def Undisturbed (e : Local.Ev α) : Prop :=
  match e with
  | .kb .close | .kb .taken | .destroy => False
  | _ => True

/-- The reader thread has read `r`, and decoded it. -/
def Decoded (p : Platform) (r : Str) (kb : Kb α) : Prop :=
  match kb.reader with
  | .wait | .select | .ended => decode p .first r = (.first, kb.posted)
  | .get pc => decode p .first r = (pc, kb.posted)
  | .post k => decode p .first r = (.first, kb.posted ++ [k])

/-- The state `s` is a proper one after the bytes `arr` have arrived: some of them have been read and decoded, and of those keys some have been handled by the processor, which was in the state `q0` at first. -/
structure Typing (A : App σ τ) (fuel : Nat) (p : Platform) (q0 : Processor.Proc σ τ) (arr : Str) (s : Local.St σ τ α) (x : Option Exn) : Prop where
  read : ∃ r, arr = r ++ s.kb.input ∧ Decoded p r s.kb
  opened : s.kb.closed = false
  live : s.live = true
  handled : s.handled ≤ s.kb.posted.length
  proc : Processor.run A fuel (s.kb.posted.take s.handled) q0 = .ok (s.proc, x)
  enabled : x = none → s.busy = false → s.kb.enabled = true

theorem run_snoc (A : App σ τ) (fuel : Nat) (ks : List Key) (k : Key) : ∀ (q q1 : Processor.Proc σ τ), Processor.run A fuel ks q = .ok (q1, none) →
    Processor.run A fuel (ks ++ [k]) q = Processor.keypressed A fuel q1 k := by
  induction ks with
  | nil =>
    intro q q1 h
    cases h
    simp only [List.nil_append, Processor.run, bind, Except.bind]
    cases hk : Processor.keypressed A fuel q k with
    | error f => rfl
    | ok v => obtain ⟨q2, x⟩ := v; cases x <;> rfl
  | cons a ks ih =>
    intro q q1 h
    simp only [List.cons_append, Processor.run, bind, Except.bind] at h ⊢
    cases hk : Processor.keypressed A fuel q a with
    | error f => rw [hk] at h; cases h
    | ok v =>
      obtain ⟨q2, x⟩ := v
      rw [hk] at h
      cases x with
      | some e => cases h
      | none => exact ih _ _ h

theorem decoded_after (p : Platform) (r : Str) (kb : Kb α) (pc : Keyboard.Pc) (c : Byte) (n : Nat) (inp : Str) (hr : kb.reader = .get pc) (h : Decoded p r kb) :
    Decoded p (r ++ [c]) { kb with reader := Keyboard.step.after p pc c, reads := n, input := inp } := by
  unfold Decoded at h ⊢
  rw [hr] at h
  simp only at h
  have hd : decode p .first (r ++ [c]) = ((decode p pc [c]).1, kb.posted ++ (decode p pc [c]).2) := by rw [decode_append, h]
  unfold Keyboard.step.after
  cases hn : Keyboard.next p pc c with
  | inl pc' => simp only [hd, decode, hn]; simp
  | inr k => simp only [hd, decode, hn]

theorem typing_kb {A : App σ τ} {fuel : Nat} {p : Platform} {manual : α → α} {q0 : Processor.Proc σ τ} {arr : Str} {s : Local.St σ τ α} (h : Typing A fuel p q0 arr s none) {e : Keyboard.Ev α} {k : Kb α}
    (ho : ownStep e = true) (hu : Undisturbed (Local.Ev.kb e)) (hk : Keyboard.step p manual s.kb e = some k) : Typing A fuel p q0 (arr ++ typedBytes [Local.Ev.kb e]) { s with kb := k } none := by
  obtain ⟨⟨r, hr, hd⟩, h2, h3, h4, h5, h6⟩ := h
  have same : ∀ k : Kb α, typedBytes [Local.Ev.kb e] = [] → k.input = s.kb.input → k.closed = s.kb.closed → k.posted = s.kb.posted → k.enabled = s.kb.enabled → Decoded p r k →
      Typing A fuel p q0 (arr ++ typedBytes [Local.Ev.kb e]) { s with kb := k } none := by
    intro k e0 e1 e2 e3 e4 e5
    exact ⟨⟨r, by rw [e0, List.append_nil, hr]; simp only [e1], e5⟩, by simp only [e2, h2], h3, by simp only [e3]; exact h4, by simp only [e3]; exact h5, fun a b => by simp only [e4]; exact h6 a b⟩
  cases e with
  | check =>
    simp only [Keyboard.step] at hk; split at hk <;> cases hk
    rename_i hc
    exact same _ rfl rfl rfl rfl rfl (by unfold Decoded at hd ⊢; rw [hc.1] at hd; exact hd)
  | ready =>
    simp only [Keyboard.step] at hk
    split at hk
    · rename_i hc
      unfold Decoded at hd
      rw [hc] at hd
      split at hk
      · cases hk; exact same _ rfl rfl rfl rfl rfl (by unfold Decoded; exact hd)
      · split at hk
        · cases hk; exact same _ rfl rfl rfl rfl rfl (by unfold Decoded; exact hd)
        · cases hk
    · cases hk
  | signal =>
    simp only [Keyboard.step] at hk; split at hk <;> cases hk
    rename_i hc
    exact same _ rfl rfl rfl rfl rfl (by unfold Decoded at hd ⊢; rw [hc] at hd; exact hd)
  | getc =>
    simp only [Keyboard.step] at hk
    split at hk
    · rename_i pc hpc
      split at hk
      · rw [h2] at hk; simp at hk
      · rename_i c rest hi
        cases hk
        refine ⟨⟨r ++ [c], ?_, decoded_after p r s.kb pc c _ _ hpc hd⟩, h2, h3, h4, h5, h6⟩
        rw [hr, hi]; simp [typedBytes]
    · cases hk
  | post =>
    simp only [Keyboard.step] at hk
    split at hk
    · rename_i key hpc
      cases hk
      refine ⟨⟨r, by simpa [typedBytes] using hr, ?_⟩, h2, h3, ?_, ?_, h6⟩
      · unfold Decoded at hd ⊢; rw [hpc] at hd; exact hd
      · simp; omega
      · simp only [List.take_append_of_le_length h4, h5]
    · cases hk
  | activate => simp [ownStep] at ho
  | deactivate => simp [ownStep] at ho
  | stop => simp [ownStep] at ho
  | arrive b =>
    simp only [Keyboard.step, h2, Bool.false_eq_true, if_false] at hk
    cases hk
    refine ⟨⟨r, ?_, hd⟩, rfl, h3, h4, h5, h6⟩
    simp [typedBytes, hr]
  | close => exact hu.elim
  | taken => exact hu.elim
  | setTty a =>
    simp only [Keyboard.step] at hk
    cases hk
    exact same _ rfl rfl rfl rfl rfl hd

theorem decoded_tty {p : Platform} {r : Str} {kb kb' : Kb α} (h : Decoded p r kb) (h1 : kb'.reader = kb.reader) (h2 : kb'.posted = kb.posted) : Decoded p r kb' := by
  unfold Decoded at h ⊢
  rw [h1, h2]; exact h

theorem typing_step {A : App σ τ} {fuel : Nat} {p : Platform} {manual : α → α} {q0 : Processor.Proc σ τ} {arr : Str} {s s' : Local.St σ τ α} (h : Typing A fuel p q0 arr s none) {e : Local.Ev α} {x : Option Exn}
    (hu : Undisturbed e) (hs : Local.step A fuel p manual s e = .ok (some (s', x))) : Typing A fuel p q0 (arr ++ typedBytes [e]) s' x := by
  cases e with
  | kb e =>
    simp only [Local.step] at hs
    split at hs
    · rename_i ho
      split at hs
      · cases hs
      · rename_i k hk
        cases hs
        exact typing_kb h ho hu hk
    · cases hs
  | task =>
    obtain ⟨⟨r, hr, hd⟩, h2, h3, h4, h5, h6⟩ := h
    simp only [Local.step] at hs
    split at hs
    · cases hs
    · rename_i hb
      split at hs
      · cases hs
      · rename_i key hkey
        simp only [h3, if_true] at hs
        split at hs
        · cases hs
        · rename_i q x' hq
          have hlt : s.handled < s.kb.posted.length := by
            rw [List.getElem?_eq_some_iff] at hkey; exact hkey.1
          have htake : s.kb.posted.take (s.handled + 1) = s.kb.posted.take s.handled ++ [key] := by
            rw [List.take_add_one, hkey]; rfl
          have hrun : Processor.run A fuel (s.kb.posted.take (s.handled + 1)) q0 = .ok (q, x') := by
            rw [htake, run_snoc A fuel _ key q0 s.proc h5, hq]
          split at hs
          · cases hs
            refine ⟨⟨r, by simpa [typedBytes] using hr, decoded_tty hd rfl rfl⟩, h2, rfl, hlt, hrun, ?_⟩
            intro hx hbz
            subst hx
            simp at hbz
          · cases hs
            exact ⟨⟨r, by simpa [typedBytes] using hr, hd⟩, h2, rfl, hlt, hrun, fun _ hbz => h6 rfl hbz⟩
  | done =>
    obtain ⟨⟨r, hr, hd⟩, h2, h3, h4, h5, h6⟩ := h
    simp only [Local.step, Keyboard.step] at hs
    split at hs
    · cases hs
      exact ⟨⟨r, by simpa [typedBytes] using hr, decoded_tty hd rfl rfl⟩, h2, h3, h4, h5, fun _ _ => rfl⟩
    · cases hs
  | destroy => exact hu.elim

theorem typedBytes_cons (e : Local.Ev α) (es : List (Local.Ev α)) : typedBytes (e :: es) = typedBytes [e] ++ typedBytes es := by
  cases e with
  | kb e => cases e <;> rfl
  | _ => rfl

theorem typing_run {A : App σ τ} {fuel : Nat} {p : Platform} {manual : α → α} {q0 : Processor.Proc σ τ} (es : List (Local.Ev α)) : ∀ {arr : Str} {s s' : Local.St σ τ α} {x : Option Exn},
    Typing A fuel p q0 arr s none → (∀ e ∈ es, Undisturbed e) → Local.run A fuel p manual es s = .ok (some (s', x)) →
    ∃ es1 es2, es = es1 ++ es2 ∧ (x = none → es2 = []) ∧ Typing A fuel p q0 (arr ++ typedBytes es1) s' x := by
  induction es with
  | nil => intro arr s s' x h _ hs; cases hs; exact ⟨[], [], rfl, fun _ => rfl, by simpa [typedBytes] using h⟩
  | cons e es ih =>
    intro arr s s' x h hu hs
    simp only [Local.run] at hs
    split at hs
    · cases hs
    · cases hs
    · rename_i s1 x1 h1
      cases hs
      exact ⟨[e], es, rfl, by simp, typing_step h (hu e (by simp)) h1⟩
    · rename_i s1 h1
      obtain ⟨es1, es2, g1, g2, g3⟩ := ih (typing_step h (hu e (by simp)) h1) (fun e he => hu e (by simp [he])) hs
      refine ⟨e :: es1, es2, by simp [g1], g2, ?_⟩
      rw [typedBytes_cons, ← List.append_assoc]; exact g3

theorem typing_create {A : App σ τ} {fuel : Nat} {p : Platform} {manual : α → α} {tty : α} {n : Nat} {w : World σ τ} {io : Io} {s : Local.St σ τ α} (h : Local.create A manual tty n w io = .ok (s, none)) :
    Typing A fuel p s.proc [] s none := by
  unfold Local.create at h
  split at h
  · cases h
  · split at h
    · cases h
    · cases h
      exact ⟨⟨[], rfl, rfl⟩, rfl, rfl, Nat.zero_le _, rfl, fun _ _ => rfl⟩

/-- **C77** In every interleaving of the reader thread, the scheduler's thread and the typing, the session does what it would do if the keys typed were pressed one by one: the keys handled are the first ones of those that the
    bytes typed so far stand for, none lost, none twice, none out of order; including those typed while a command is being executed. -/
theorem C77_keys (A : App σ τ) (fuel : Nat) (p : Platform) (manual : α → α) (tty : α) (n : Nat) (w : World σ τ) (io : Io) (s0 s : Local.St σ τ α) (es : List (Local.Ev α))
    (h0 : Local.create A manual tty n w io = .ok (s0, none)) (hu : ∀ e ∈ es, Undisturbed e) (h : Local.run A fuel p manual es s0 = .ok (some (s, none))) :
    ∃ keys, keys <+: (decode p .first (typedBytes es)).2 ∧ Processor.run A fuel keys s0.proc = .ok (s.proc, none) := by
  obtain ⟨es1, es2, g1, g2, ⟨⟨r, g3, g4⟩, _, _, _, g5, _⟩⟩ := typing_run es (typing_create (fuel := fuel) (p := p) h0) hu h
  rw [g2 rfl, List.append_nil] at g1
  subst g1
  refine ⟨_, ?_, g5⟩
  refine (List.take_prefix _ _).trans ?_
  rw [List.nil_append] at g3
  rw [g3, decode_append]
  refine List.IsPrefix.trans ?_ (List.prefix_append _ _)
  unfold Decoded at g4
  split at g4 <;> rw [g4]
  · exact List.prefix_refl _
  · exact List.prefix_refl _
  · exact List.prefix_refl _
  · exact List.prefix_refl _
  · exact List.prefix_append _ _

/-- There is something to do for the reader thread or for the scheduler's. -/
def Pending (s : Local.St σ τ α) : Prop := s.busy = true ∨ s.handled < s.kb.posted.length ∨ s.kb.input ≠ [] ∨ ∃ k, s.kb.reader = .post k

/-- **C77** When nothing is left to do, all keys typed have been handled. -/
theorem C77_all (A : App σ τ) (fuel : Nat) (p : Platform) (manual : α → α) (tty : α) (n : Nat) (w : World σ τ) (io : Io) (s0 s : Local.St σ τ α) (es : List (Local.Ev α))
    (h0 : Local.create A manual tty n w io = .ok (s0, none)) (hu : ∀ e ∈ es, Undisturbed e) (h : Local.run A fuel p manual es s0 = .ok (some (s, none))) (hp : ¬ Pending s) :
    Processor.run A fuel (decode p .first (typedBytes es)).2 s0.proc = .ok (s.proc, none) := by
  obtain ⟨es1, es2, g1, g2, ⟨⟨r, g3, g4⟩, _, _, g6, g5, _⟩⟩ := typing_run es (typing_create (fuel := fuel) (p := p) h0) hu h
  rw [g2 rfl, List.append_nil] at g1
  subst g1
  simp only [Pending, not_or, not_exists] at hp
  obtain ⟨_, hp2, hp3, hp4⟩ := hp
  have hi : s.kb.input = [] := by simpa using hp3
  rw [List.nil_append, hi, List.append_nil] at g3
  have hk : (decode p .first r).2 = s.kb.posted := by
    unfold Decoded at g4
    split at g4
    iterate 4 rw [g4]
    rename_i k hk
    exact absurd hk (hp4 k)
  rw [g3, hk]
  rw [List.take_of_length_le (by omega)] at g5
  exact g5

/-- Steps of the two threads. -/
def Inner (e : Local.Ev α) : Prop :=
  match e with
  | .task | .done => True
  | .kb e => Own e
  | .destroy => False

theorem inner_undisturbed {e : Local.Ev α} (h : Inner e) : Undisturbed e := by
  cases e with
  | kb e => cases e <;> simp_all [Inner, Own, Undisturbed]
  | _ => simp_all [Inner, Undisturbed]

/-- **C77** As long as something is left to do, one of the two threads can do it, if the reader thread has not been ended by a signal (C66). -/
theorem C77_progress (A : App σ τ) (fuel : Nat) (p : Platform) (manual : α → α) (tty : α) (n : Nat) (w : World σ τ) (io : Io) (s0 s : Local.St σ τ α) (es : List (Local.Ev α))
    (h0 : Local.create A manual tty n w io = .ok (s0, none)) (hu : ∀ e ∈ es, Undisturbed e) (h : Local.run A fuel p manual es s0 = .ok (some (s, none))) (hp : Pending s)
    (hr : s.kb.reader ≠ .ended) : ∃ e, Inner e ∧ Local.step A fuel p manual s e ≠ .ok none := by
  obtain ⟨es1, es2, _, _, ⟨_, g2, g3, _, _, g6⟩⟩ := typing_run es (typing_create (fuel := fuel) (p := p) h0) hu h
  by_cases hb : s.busy = true
  · exact ⟨.done, trivial, by simp [Local.step, hb, Keyboard.step]⟩
  · have hb' : s.busy = false := by simpa using hb
    have hen := g6 rfl hb'
    by_cases hh : s.handled < s.kb.posted.length
    · refine ⟨.task, trivial, ?_⟩
      simp only [Local.step, hb', Bool.false_eq_true, if_false, List.getElem?_eq_getElem hh, g3, if_true]
      split
      · simp
      · split <;> simp
    · have hrest : s.kb.input ≠ [] ∨ ∃ k, s.kb.reader = .post k := by
        rcases hp with h | h | h
        · exact absurd h hb
        · exact absurd h hh
        · exact h
      cases hrd : s.kb.reader with
      | ended => exact absurd hrd hr
      | wait => exact ⟨.kb .check, trivial, by simp [Local.step, ownStep, Keyboard.step, hrd, hen]⟩
      | post k => exact ⟨.kb .post, trivial, by simp [Local.step, ownStep, Keyboard.step, hrd]⟩
      | select =>
        refine ⟨.kb .ready, trivial, ?_⟩
        have hi : s.kb.input ≠ [] := by
          rcases hrest with h | ⟨k, h⟩
          · exact h
          · rw [hrd] at h; cases h
        simp only [Local.step, ownStep, Keyboard.step, hrd, if_true]
        cases s.kb.stopped <;> simp [hi]
      | get pc =>
        refine ⟨.kb .getc, trivial, ?_⟩
        have hi : s.kb.input ≠ [] := by
          rcases hrest with h | ⟨k, h⟩
          · exact h
          · rw [hrd] at h; cases h
        cases hin : s.kb.input with
        | nil => exact absurd hin hi
        | cons c rest => simp [Local.step, ownStep, Keyboard.step, hrd, hin]

/-- How far the reader thread is. -/
def readerWork : Keyboard.Reader → Nat
  | .post _ => 5
  | .wait => 2
  | .select => 1
  | _ => 0

/-- How much is left to do, at most. -/
def work (s : Local.St σ τ α) : Nat := 6 * s.kb.input.length + readerWork s.kb.reader + 2 * (s.kb.posted.length - s.handled) + (if s.busy then 1 else 0)

theorem work_step {A : App σ τ} {fuel : Nat} {p : Platform} {manual : α → α} {q0 : Processor.Proc σ τ} {arr : Str} {s s' : Local.St σ τ α} (h : Typing A fuel p q0 arr s none) {e : Local.Ev α} {x : Option Exn} (hi : Inner e)
    (hs : Local.step A fuel p manual s e = .ok (some (s', x))) : work s' + 1 ≤ work s := by
  have h2 := h.opened
  have h4 := h.handled
  cases e with
  | kb e =>
    simp only [Local.step] at hs
    split at hs
    · split at hs
      · cases hs
      · rename_i k hk
        cases hs
        cases e with
        | check =>
          simp only [Keyboard.step] at hk; split at hk <;> cases hk
          rename_i hc
          simp [work, readerWork, hc.1]; omega
        | ready =>
          simp only [Keyboard.step] at hk
          split at hk
          · rename_i hc
            split at hk
            · cases hk; simp [work, readerWork, hc]; omega
            · split at hk <;> cases hk
              simp [work, readerWork, hc]; omega
          · cases hk
        | getc =>
          simp only [Keyboard.step] at hk
          split at hk
          · rename_i pc hpc
            split at hk
            · rw [h2] at hk; simp at hk
            · rename_i c rest hin
              cases hk
              have : readerWork (Keyboard.step.after p pc c) ≤ 5 := by
                cases Keyboard.step.after p pc c <;> simp [readerWork]
              simp [work, hin, hpc]; omega
          · cases hk
        | post =>
          simp only [Keyboard.step] at hk
          split at hk
          · rename_i key hpc
            cases hk
            simp [work, readerWork, hpc]; omega
          · cases hk
        | _ => exact hi.elim
    · cases hs
  | task =>
    simp only [Local.step] at hs
    split at hs
    · cases hs
    · rename_i hb
      split at hs
      · cases hs
      · rename_i key hkey
        simp only [h.live, if_true] at hs
        have hlt : s.handled < s.kb.posted.length := by
          rw [List.getElem?_eq_some_iff] at hkey; exact hkey.1
        split at hs
        · cases hs
        · split at hs <;> cases hs
          · simp only [work, hb]
            split <;> simp <;> omega
          · simp [work, hb]; omega
  | done =>
    simp only [Local.step, Keyboard.step] at hs
    split at hs
    · rename_i hb
      cases hs
      simp [work, hb]
    · cases hs
  | destroy => exact hi.elim

/-- **C77** And this does not go on forever: if nothing more is typed, there is a bound for the number of steps of the two threads, in whatever order. -/
theorem C77_bounded (A : App σ τ) (fuel : Nat) (p : Platform) (manual : α → α) (tty : α) (n : Nat) (w : World σ τ) (io : Io) (s0 s s' : Local.St σ τ α) (es es' : List (Local.Ev α))
    (h0 : Local.create A manual tty n w io = .ok (s0, none)) (hu : ∀ e ∈ es, Undisturbed e) (h : Local.run A fuel p manual es s0 = .ok (some (s, none)))
    (hi : ∀ e ∈ es', Inner e) (h' : Local.run A fuel p manual es' s = .ok (some (s', none))) : es'.length ≤ 6 * s.kb.input.length + 5 + 2 * s.kb.posted.length + 1 := by
  obtain ⟨es1, es2, _, _, g⟩ := typing_run es (typing_create (fuel := fuel) (p := p) h0) hu h
  have gen : ∀ (es : List (Local.Ev α)) (arr : Str) (s : Local.St σ τ α), Typing A fuel p s0.proc arr s none → (∀ e ∈ es, Inner e) → Local.run A fuel p manual es s = .ok (some (s', none)) →
      es.length ≤ work s := by
    intro es
    induction es with
    | nil => intro arr s _ _ _; simp
    | cons e es ih =>
      intro arr s g hi hs
      simp only [Local.run] at hs
      split at hs
      · cases hs
      · cases hs
      · cases hs
      · rename_i s1 h1
        have := ih _ s1 (typing_step g (inner_undisturbed (hi e (by simp))) h1) (fun e he => hi e (by simp [he])) hs
        have := work_step g (hi e (by simp)) h1
        simp; omega
  have := gen es' _ s g hi h'
  have hr : readerWork s.kb.reader ≤ 5 := by cases s.kb.reader <;> simp [readerWork]
  unfold work at this
  split at this <;> omega

/-- **C77** A line of printable characters, typed and ended by the Enter key, is executed: when nothing is left to do, the session is in the state that `Feed` with this line and the following prompt leave
    behind (up to the text written to echo the line). -/
theorem C77_line (A : App σ τ) (fuel : Nat) (p : Platform) (manual : α → α) (tty : α) (n : Nat) (w : World σ τ) (io : Io) (s0 s : Local.St σ τ α) (es : List (Local.Ev α))
    (h0 : Local.create A manual tty n w io = .ok (s0, none)) (hu : ∀ e ∈ es, Undisturbed e) (h : Local.run A fuel p manual es s0 = .ok (some (s, none))) (hp : ¬ Pending s)
    (line : Str) (hl : Printable line) (ht : typedBytes es = line ++ bs!"\n") : ∃ io', enterLine A fuel line { s0.proc.w with io := io' } = .ok (s.proc, none) := by
  have h1 := C77_all A fuel p manual tty n w io s0 s es h0 hu h hp
  have hq : s0.proc = ⟨s0.proc.w, ⟨[], 0⟩, true⟩ := by
    unfold Local.create at h0
    split at h0
    · cases h0
    · split at h0
      · cases h0
      · cases h0; rfl
  obtain ⟨io', h2⟩ := C43_line_executed A p fuel s0.proc.w line hl
  rw [hq, ht, h2] at h1
  exact ⟨io', h1⟩

/-- A session of the sample application at a keyboard. -/
def local0 : Local.St (List Nat) (List Str) Bool := ⟨Keyboard.init (fun _ => false) true, ⟨Sample.world, ⟨[], 0⟩, true⟩, 0, false, true⟩

/-- What can be seen: the calls, how many keys have been handled, the mode of the terminal and whether the session exists. -/
def view (r : Except Fault (Option (Local.St (List Nat) (List Str) Bool × Option Exn))) : Option ((List Nat × Nat) × (Bool × Bool)) :=
  match r with
  | .ok (some (s, none)) => some ((s.proc.w.app, s.handled), (s.kb.tty, s.live))
  | _ => none

/-- The steps that bring a key of one byte to the scheduler. -/
def pressed (c : Byte) : List (Local.Ev Bool) := [.kb (.arrive c), .kb .check, .kb .ready, .kb .getc, .kb .post]

/-- `any` is typed, then Enter; while the command is executed `x` is typed, and is read because the reader thread had seen the keyboard enabled. -/
example : view (Local.run Sample.app 3 plat (fun _ => false) ((bs!"any\n").flatMap pressed ++ [.kb .check, .task, .task, .task, .task, .kb (.arrive b%'x'), .kb .ready, .kb .getc, .kb .post, .done, .task]) local0) =
    some (([5], 5), (false, true)) := by decide +kernel
example : typedBytes ((bs!"any\n").flatMap pressed ++ [.kb .check, .task]) = bs!"any\n" := rfl
example : ∃ s, Local.create Sample.app (fun _ : Bool => false) true 9 Sample.world Sample.io = .ok (s, none) := ⟨_, rfl⟩

/-! ### C76 -/

/-- **C76 refuted** A session with a keyboard must not be destroyed while the scheduler goes on: whenever a key has been posted and not been handled, and the reader thread waits for the next one, it is handled by the
    destroyed session. -/
theorem C76_local_refuted (A : App σ τ) (fuel : Nat) (p : Platform) (manual : α → α) (s : Local.St σ τ α) (hl : s.live = true) (hb : s.busy = false) (he : s.kb.enabled = true)
    (hr : s.kb.reader = .wait ∨ s.kb.reader = .select) (hh : s.handled < s.kb.posted.length) :
    Local.run A fuel p manual ([.destroy] ++ (if s.kb.reader = .wait then [.kb .check] else []) ++ [.kb .ready, .task]) s = .error (.ub .dangling) := by
  have hk : s.kb.posted[s.handled]? = some s.kb.posted[s.handled] := List.getElem?_eq_getElem hh
  rcases hr with hr | hr <;> simp [Local.run, Local.step, Keyboard.step, ownStep, hl, hb, he, hr, hk]

example : Local.run Sample.app 3 plat (fun _ => false) (pressed b%'a' ++ [.destroy, .kb .check, .kb .ready, .task]) local0 = .error (.ub .dangling) := by rfl

/-- Without the last event nothing is wrong. -/
example : view (Local.run Sample.app 3 plat (fun _ => false) (pressed b%'a' ++ [.destroy, .kb .check, .kb .ready]) local0) = some (([], 0), (true, false)) := by decide +kernel

/-- **C76 refuted** An asynchronous session must not be destroyed while the scheduler goes on: closing the descriptor makes asio call the handler of the read operation in progress, which there always is before the input
    has ended, with the destroyed session. -/
theorem C76_async_refuted (A : App σ τ) (fuel : Nat) (s : Async.St σ τ) (hr : s.reading = true) : Async.run A fuel [.destroy, .fail] s = .error (.ub .dangling) := by
  simp [Async.run, Async.step, hr]

example : ∃ s, Async.create Sample.app Sample.world Sample.io = .ok s ∧ s.reading = true := ⟨_, rfl, rfl⟩

/-- **C76** (part) A destroyed session whose key presses had all been handled is never used any more. Missing: key presses not yet handled, and asynchronous sessions that are reading (refuted above). -/
theorem C76_local_partial (A : App σ τ) (fuel : Nat) (p : Platform) (manual : α → α) (s : Local.St σ τ α) (hl : s.live = false) (hb : s.busy = false) (hr : s.kb.reader = .ended)
    (hh : s.handled = s.kb.posted.length) (es : List (Local.Ev α)) : ∃ r, Local.run A fuel p manual es s = .ok r := by
  induction es generalizing s with
  | nil => exact ⟨_, rfl⟩
  | cons e es ih =>
    have hstep : Local.step A fuel p manual s e = .ok none ∨ ∃ k : Kb α, Local.step A fuel p manual s e = .ok (some ({ s with kb := k }, none)) ∧ k.reader = .ended ∧ k.posted = s.kb.posted := by
      cases e with
      | kb e =>
        simp only [Local.step]
        split
        · split
          · exact .inl rfl
          · rename_i k hk
            refine .inr ⟨k, rfl, ?_⟩
            cases e <;> simp_all [Keyboard.step, ownStep]
            · exact hk.2 ▸ ⟨rfl, rfl⟩
            · exact hk ▸ ⟨rfl, rfl⟩
            · exact hk.2 ▸ ⟨rfl, rfl⟩
            · exact hk ▸ ⟨rfl, rfl⟩
        · exact .inl rfl
      | task => left; simp [Local.step, hb, hh]
      | done => left; simp [Local.step, hb]
      | destroy => left; simp [Local.step, hl]
    simp only [Local.run]
    rcases hstep with h | ⟨k, h, h1, h2⟩
    · rw [h]; exact ⟨_, rfl⟩
    · rw [h]; exact ih _ hl hb h1 (by simp only [h2]; exact hh)

/-- **C76** (part) An asynchronous session that is not reading any more, because its input has ended, can be destroyed. -/
theorem C76_async_partial (A : App σ τ) (fuel : Nat) (s : Async.St σ τ) (hr : s.reading = false) (es : List Async.Ev) : ∃ r, Async.run A fuel (.destroy :: es) s = .ok r := by
  have gen : ∀ (es : List Async.Ev) (s : Async.St σ τ), s.reading = false → ∃ r, Async.run A fuel es s = .ok r := by
    intro es
    induction es with
    | nil => intro s _; exact ⟨_, rfl⟩
    | cons e es ih =>
      intro s hr
      cases e <;> simp only [Async.run, Async.step, hr, Bool.false_eq_true, if_false, false_and] <;> exact ih _ (by first | rfl | exact hr)
  exact gen _ s hr

example : ∃ r, Async.run Sample.app 3 [.fail] async0 = .ok r ∧ r.1.reading = false := ⟨_, rfl, rfl⟩
example : ∃ s : Local.St (List Nat) (List Str) Bool, Local.run Sample.app 3 plat (fun _ => false) (pressed b%'a' ++ [.task, .destroy, .kb .check, .kb .ready]) local0 = .ok (some (s, none)) ∧
    s.live = false ∧ s.busy = false ∧ s.kb.reader = .ended ∧ s.handled = s.kb.posted.length := ⟨_, rfl, rfl, rfl, rfl, rfl⟩

/-! ### C45 -/

/-- The mode of the terminal is the original one while input is disabled, and the one without echo otherwise. -/
structure Mode (manual : α → α) (tty : α) (s : Local.St σ τ α) : Prop where
  busy : s.busy = true → s.kb.enabled = false ∧ s.live = true
  oldt : s.kb.oldt = tty
  mode : s.live = true → s.kb.tty = (if s.kb.enabled then manual tty else tty)
  gone : s.live = false → s.kb.tty = tty ∧ s.kb.stopped = true

/-- The event does not change the mode of the terminal behind the library's back. -/
def NoTty (e : Local.Ev α) : Prop := ∀ a, e ≠ .kb (.setTty a)

theorem kb_own_frame {p : Platform} {manual : α → α} {k k' : Kb α} {e : Keyboard.Ev α} (ho : Local.ownStep e = true) (h : Keyboard.step p manual k e = some k') :
    k'.enabled = k.enabled ∧ k'.oldt = k.oldt ∧ k'.stopped = k.stopped ∧ ((∀ a, e ≠ .setTty a) → k'.tty = k.tty) := by
  cases e with
  | activate => cases ho
  | deactivate => cases ho
  | stop => cases ho
  | setTty a => cases h; exact ⟨rfl, rfl, rfl, fun hn => absurd rfl (hn a)⟩
  | _ =>
    simp only [Keyboard.step] at h
    repeat' split at h
    all_goals cases h
    all_goals exact ⟨rfl, rfl, rfl, fun _ => rfl⟩

theorem mode_step {A : App σ τ} {fuel : Nat} {p : Platform} {manual : α → α} {tty : α} {s s' : Local.St σ τ α} {x : Option Exn} (hm : Mode manual tty s) {e : Local.Ev α} (he : NoTty e)
    (h : Local.step A fuel p manual s e = .ok (some (s', x))) : Mode manual tty s' := by
  obtain ⟨m1, m2, m3, m4⟩ := hm
  cases e with
  | kb e =>
    simp only [Local.step] at h
    split at h
    · rename_i ho
      split at h
      · cases h
      · rename_i k hk
        cases h
        obtain ⟨f1, f2, f4, f3⟩ := kb_own_frame ho hk
        have f3 := f3 (fun a ha => he a (by rw [ha]))
        exact ⟨fun hb => ⟨f1.trans (m1 hb).1, (m1 hb).2⟩, f2.trans m2, fun hl => by rw [f3, f1]; exact m3 hl, fun hl => ⟨f3.trans (m4 hl).1, f4.trans (m4 hl).2⟩⟩
    · cases h
  | task =>
    simp only [Local.step] at h
    split at h
    · cases h
    · rename_i hb
      split at h
      · cases h
      · split at h
        · rename_i hl
          split at h
          · cases h
          · split at h <;> cases h
            · exact ⟨fun _ => ⟨rfl, hl⟩, m2, fun _ => by simpa using m2, fun hn => by rw [hl] at hn; cases hn⟩
            · exact ⟨fun hb' => absurd hb' hb, m2, m3, m4⟩
        · split at h <;> cases h
  | done =>
    simp only [Local.step, Keyboard.step] at h
    split at h
    · rename_i hb
      cases h
      obtain ⟨b1, b2⟩ := m1 hb
      have ht := m3 b2
      rw [b1] at ht
      simp only [Bool.false_eq_true, if_false] at ht
      exact ⟨by simp, ht, fun _ => by simp [ht], fun hn => by rw [b2] at hn; cases hn⟩
    · cases h
  | destroy =>
    simp only [Local.step, Keyboard.step] at h
    split at h
    · cases h
    · rename_i hn
      cases h
      exact ⟨fun hb => absurd (.inl hb) hn, m2, by simp, fun _ => ⟨m2, rfl⟩⟩

theorem mode_run {A : App σ τ} {fuel : Nat} {p : Platform} {manual : α → α} {tty : α} (es : List (Local.Ev α)) : ∀ {s s' : Local.St σ τ α} {x : Option Exn}, Mode manual tty s → (∀ e ∈ es, NoTty e) →
    Local.run A fuel p manual es s = .ok (some (s', x)) → Mode manual tty s' := by
  induction es with
  | nil => intro s s' x hm _ h; cases h; exact hm
  | cons e es ih =>
    intro s s' x hm he h
    simp only [Local.run] at h
    split at h
    · cases h
    · cases h
    · rename_i s1 x1 hs
      cases h
      exact mode_step hm (he e (by simp)) hs
    · rename_i s1 hs
      exact ih (mode_step hm (he e (by simp)) hs) (fun e' h' => he e' (by simp [h'])) h

theorem mode_create {A : App σ τ} {manual : α → α} {tty : α} {n : Nat} {w : World σ τ} {io : Io} {s0 : Local.St σ τ α} (h0 : Local.create A manual tty n w io = .ok (s0, none)) : Mode manual tty s0 := by
  unfold Local.create at h0
  split at h0
  · cases h0
  · split at h0
    · cases h0
    · cases h0; exact ⟨by simp, rfl, fun _ => rfl, by simp⟩

/-- **C45** When the session has been destroyed, at whatever time, the terminal is in the mode in which it was when the session was created (unless somebody else has changed it), and stays so; the reader thread has been told to end. -/
theorem C45_destroyed (A : App σ τ) (fuel : Nat) (p : Platform) (manual : α → α) (tty : α) (n : Nat) (w : World σ τ) (io : Io) (s0 s s' : Local.St σ τ α) (x' : Option Exn) (es es' : List (Local.Ev α))
    (h0 : Local.create A manual tty n w io = .ok (s0, none)) (he : ∀ e ∈ es ++ es', NoTty e) (h : Local.run A fuel p manual es s0 = .ok (some (s, none))) (hd : Local.step A fuel p manual s .destroy = .ok (some (s', none)))
    (s'' : Local.St σ τ α) (h' : Local.run A fuel p manual es' s' = .ok (some (s'', x'))) : s''.kb.tty = tty ∧ s''.kb.stopped = true := by
  have hm' := mode_step (mode_run es (mode_create h0) (fun e h => he e (by simp [h])) h) (e := .destroy) (fun a h => by cases h) hd
  have hm'' := mode_run es' hm' (fun e h => he e (by simp [h])) h'
  refine hm''.gone ?_
  have stays : ∀ (es : List (Local.Ev α)) (s s'' : Local.St σ τ α) (x : Option Exn), s.live = false → Local.run A fuel p manual es s = .ok (some (s'', x)) → s''.live = false := by
    intro es
    induction es with
    | nil => intro s s'' x hl h; cases h; exact hl
    | cons e es ih =>
      intro s s'' x hl h
      have one : ∀ s1 y, Local.step A fuel p manual s e = .ok (some (s1, y)) → s1.live = false := by
        intro s1 y h1
        cases e with
        | kb e =>
          simp only [Local.step] at h1
          split at h1
          · split at h1 <;> cases h1
            exact hl
          · cases h1
        | task =>
          simp only [Local.step, hl, Bool.false_eq_true, if_false] at h1
          split at h1
          · cases h1
          · split at h1
            · cases h1
            · split at h1 <;> cases h1
        | done =>
          simp only [Local.step, Keyboard.step] at h1
          split at h1 <;> cases h1
          exact hl
        | destroy => simp [Local.step, hl] at h1
      simp only [Local.run] at h
      split at h
      · cases h
      · cases h
      · rename_i s1 y h1; cases h; exact one _ _ h1
      · rename_i s1 h1; exact ih s1 s'' x (one _ _ h1) h
  refine stays es' s' s'' x' ?_ h'
  simp only [Local.step, Keyboard.step] at hd
  split at hd <;> cases hd
  rfl

/-- A letter is typed, the session is destroyed, another letter is typed; the reader thread ends when it has seen it. -/
example : ∃ s' s'' : Local.St (List Nat) (List Str) Bool, ∃ s, Local.run Sample.app 3 plat (fun _ => false) (pressed b%'a' ++ [.task]) local0 = .ok (some (s, none)) ∧ s.kb.tty = false ∧
    Local.step Sample.app 3 plat (fun _ => false) s .destroy = .ok (some (s', none)) ∧
    Local.run Sample.app 3 plat (fun _ => false) [.kb (.arrive b%'x'), .kb .check, .kb .ready] s' = .ok (some (s'', none)) ∧ s''.kb.tty = true ∧ s''.kb.reader = .ended := ⟨_, _, _, rfl, rfl, rfl, rfl, rfl, rfl⟩

/-- While a command is executed nothing but steps of the reader thread and of the environment can happen. -/
theorem busy_run {A : App σ τ} {fuel : Nat} {p : Platform} {manual : α → α} (es : List (Local.Ev α)) : ∀ {s s' : Local.St σ τ α} {x : Option Exn}, s.busy = true → s.kb.enabled = false → .done ∉ es →
    Local.run A fuel p manual es s = .ok (some (s', x)) →
    x = none ∧ s'.busy = true ∧ s'.proc = s.proc ∧ s'.handled = s.handled ∧ ∃ ks, (∀ e ∈ ks, NoActivate e) ∧ Keyboard.steps p manual s.kb ks = some s'.kb := by
  induction es with
  | nil => intro s s' x hb hk _ h; cases h; exact ⟨rfl, hb, rfl, rfl, [], by simp, rfl⟩
  | cons e es ih =>
    intro s s' x hb hk hd h
    simp only [Local.run] at h
    cases e with
    | kb e =>
      simp only [Local.step] at h
      cases ho : Local.ownStep e with
      | false => simp [ho] at h
      | true =>
        simp only [ho, if_true] at h
        cases hs : Keyboard.step p manual s.kb e with
        | none => simp [hs] at h
        | some k =>
          simp only [hs] at h
          obtain ⟨a1, a2, a3, a4, ks, a5, a6⟩ := ih (s := { s with kb := k }) hb ((kb_own_frame ho hs).1.trans hk) (fun hc => hd (by simp [hc])) h
          refine ⟨a1, a2, a3, a4, e :: ks, ?_, by simp only [Keyboard.steps, hs]; exact a6⟩
          intro e' he'
          rcases List.mem_cons.1 he' with rfl | he'
          · cases e' <;> simp_all [NoActivate, Local.ownStep]
          · exact a5 e' he'
    | task => simp [Local.step, hb] at h
    | done => exact absurd (by simp) hd
    | destroy => simp [Local.step, hb] at h

/-- **C45** (part) In a local session, in every interleaving: while a command is executed the keyboard takes at most one key, of at most four bytes; no key is handled; and the terminal is in the mode in which it was when
    the session was created, unless somebody else has changed it. That a key is taken at all is the part that is refuted (`C45_taken_refuted`). -/
theorem C45_local_partial (A : App σ τ) (fuel : Nat) (p : Platform) (manual : α → α) (tty : α) (n : Nat) (w : World σ τ) (io : Io) (s0 s s' : Local.St σ τ α) (x' : Option Exn) (es es' : List (Local.Ev α))
    (h0 : Local.create A manual tty n w io = .ok (s0, none)) (he : ∀ e ∈ es, NoTty e) (h : Local.run A fuel p manual es s0 = .ok (some (s, none))) (hb : s.busy = true)
    (he' : ∀ e ∈ es', NoTty e) (hd : .done ∉ es') (h' : Local.run A fuel p manual es' s = .ok (some (s', x'))) :
    s'.kb.posted.length ≤ s.kb.posted.length + 1 ∧ s'.kb.reads ≤ s.kb.reads + 4 ∧ s'.proc = s.proc ∧ s'.kb.tty = tty := by
  have hm0 := mode_create h0
  have hm := mode_run es hm0 he h
  have hm' := mode_run es' hm he' h'
  obtain ⟨a1, a2, a3, a4, ks, a5, a6⟩ := busy_run es' hb (hm.busy hb).1 hd h'
  obtain ⟨_, h1, h2⟩ := steps_disabled ks (hm.busy hb).1 a5 a6
  have r4 : ∀ r, mayRead r ≤ 4 := by
    intro r
    cases r with
    | get pc => cases pc <;> simp [mayRead]
    | _ => simp [mayRead]
  have p1 : ∀ r, mayPost r ≤ 1 := by intro r; cases r <;> simp [mayPost]
  have := r4 s.kb.reader
  have := p1 s.kb.reader
  obtain ⟨b1, b2⟩ := hm'.busy a2
  have ht := hm'.mode b2
  rw [b1] at ht
  exact ⟨by omega, by omega, a3, by simpa using ht⟩

/-- A blank line is executed while the reader thread is already waiting for the next key, and `x` is typed meanwhile. -/
example : ∃ s s' : Local.St (List Nat) (List Str) Bool, Local.run Sample.app 3 plat (fun _ => false) (pressed 10 ++ [.kb .check, .task]) local0 = .ok (some (s, none)) ∧ s.busy = true ∧
    Local.run Sample.app 3 plat (fun _ => false) [.kb (.arrive b%'x'), .kb .ready, .kb .getc, .kb .post] s = .ok (some (s', none)) ∧ s'.kb.posted = [.ret, .ascii b%'x'] ∧ s'.kb.tty = true := ⟨_, _, rfl, rfl, rfl, rfl, rfl⟩

theorem setLine_log (p : Processor.Proc σ τ) (s : Str) : (Processor.setLine p s).w.log = p.w.log := rfl

theorem redraw_log {p q : Processor.Proc σ τ} {line : Str} (h : Processor.redraw p line = .ok q) : q.w.log = p.w.log := by
  unfold Processor.redraw at h
  cases hp : prompt p.w with
  | error f => rw [hp] at h; cases h
  | ok w =>
    rw [hp] at h
    cases h
    obtain ⟨io, rfl, _⟩ := Processor.prompt_io hp
    rfl

/-- A key other than Return runs no handler. -/
theorem other_keys_quiet {A : App σ τ} {fuel : Nat} {p q : Processor.Proc σ τ} {k : Key} {x : Option Exn} (hk : k ≠ .ret) (h : Processor.keypressed A fuel p k = .ok (q, x)) : Verif.Quiet p.w q.w := by
  unfold Processor.keypressed at h
  cases ht : Terminal.keypressed p.term p.w.io k with
  | error f => rw [ht] at h; cases h
  | ok r =>
    obtain ⟨t, io, s⟩ := r
    rw [ht] at h
    change Processor.newCommand A fuel _ s = _ at h
    cases s with
    | nothing => cases h; exact quiet_log rfl
    | eof =>
      simp only [Processor.newCommand] at h
      cases he : exitSession A { p.w with io := io } with
      | error f => rw [he] at h; cases h
      | ok r =>
        rw [he] at h
        cases h
        have hq := quiet_exit A _ _ _ he
        exact hq
    | command c =>
      exfalso
      cases k <;> simp only [Terminal.keypressed] at ht
      all_goals first
        | exact hk rfl
        | (repeat' split at ht) <;> simp [bind, Except.bind] at ht <;> (repeat' split at ht) <;> simp at ht
    | down =>
      simp only [Processor.newCommand] at h
      cases he : History.next p.w.hist with
      | error f => rw [he] at h; cases h
      | ok r => rw [he] at h; cases h; exact quiet_log rfl
    | up =>
      simp only [Processor.newCommand] at h
      cases he : History.previous p.w.hist t.line with
      | error f => rw [he] at h; cases h
      | ok r => rw [he] at h; cases h; exact quiet_log rfl
    | tab =>
      simp only [Processor.newCommand] at h
      cases he : Processor.tab A fuel { p with term := t, w := { p.w with io := io } } with
      | error f => rw [he] at h; cases h
      | ok r =>
        rw [he] at h
        cases h
        refine quiet_log ?_
        simp only [Processor.tab] at he
        cases hc : Completion.completions A.plat fuel { p.w with io := io } t.line with
        | error f => rw [hc] at he; cases he
        | ok cs =>
          rw [hc] at he
          match cs, he with
          | [], he => cases he; rfl
          | [c], he => cases he; rfl
          | a :: b :: cs, he =>
            simp only [bind, Except.bind] at he
            split at he
            · cases he
            · split at he
              · cases he; rfl
              · exact (redraw_log he).trans rfl
    | clear =>
      simp only [Processor.newCommand] at h
      cases he : Processor.redraw { p with term := t, w := World.put { p.w with io := io } Processor.clearScreen } t.line with
      | error f => rw [he] at h; cases h
      | ok r => rw [he] at h; cases h; exact quiet_log ((redraw_log he).trans rfl)

/-- How many handler calls there have been. -/
def calls (w : World σ τ) : Nat := (w.log.filter isRan).length

/-- **C45** (part) In a local session: a handler is called only between `DeactivateInput` and `ActivateInput`. If the execution of a key press calls a handler, input is disabled and the terminal is in the mode it had when the session was created
    until the command has ended; and key presses other than Return leave keyboard and terminal alone. -/
theorem C45_released_partial (A : App σ τ) (fuel : Nat) (p : Platform) (manual : α → α) (tty : α) (n : Nat) (w : World σ τ) (io : Io) (s0 s s' : Local.St σ τ α) (x : Option Exn) (es : List (Local.Ev α))
    (h0 : Local.create A manual tty n w io = .ok (s0, none)) (he : ∀ e ∈ es, NoTty e) (h : Local.run A fuel p manual es s0 = .ok (some (s, none))) (e : Local.Ev α)
    (hs : Local.step A fuel p manual s e = .ok (some (s', x))) :
    (calls s'.proc.w ≠ calls s.proc.w → s'.kb.enabled = false ∧ s'.kb.tty = tty ∧ (x = none → s'.busy = true)) ∧
    (e = .task → s.kb.posted[s.handled]? ≠ some .ret → s'.kb = s.kb ∧ s'.busy = s.busy) := by
  have hm0 := mode_create h0
  have hm := mode_run es hm0 he h
  cases e with
  | kb e =>
    simp only [Local.step] at hs
    repeat' split at hs
    all_goals cases hs
    exact ⟨fun hn => absurd rfl hn, fun hc => by cases hc⟩
  | done =>
    simp only [Local.step] at hs
    repeat' split at hs
    all_goals cases hs
    exact ⟨fun hn => absurd rfl hn, fun hc => by cases hc⟩
  | destroy =>
    simp only [Local.step] at hs
    repeat' split at hs
    all_goals cases hs
    exact ⟨fun hn => absurd rfl hn, fun hc => by cases hc⟩
  | task =>
    simp only [Local.step] at hs
    split at hs
    · cases hs
    · cases hk : s.kb.posted[s.handled]? with
      | none => rw [hk] at hs; cases hs
      | some key =>
        rw [hk] at hs
        simp only at hs
        split at hs
        · split at hs
          · cases hs
          · rename_i q x' hq
            split at hs <;> cases hs
            · rename_i hr
              exact ⟨fun _ => ⟨rfl, hm.oldt, fun hx => by simp [hx]⟩, fun _ hn => absurd (by rw [hr]) hn⟩
            · rename_i hr
              obtain ⟨evs, hl, hev⟩ := other_keys_quiet hr hq
              refine ⟨fun hn => absurd ?_ hn, fun _ _ => ⟨rfl, rfl⟩⟩
              simp only [calls, hl, List.filter_append]
              have hnil : evs.filter isRan = [] := List.filter_eq_nil_iff.2 (fun e he => by simp [hev e he])
              simp [hnil]
        · split at hs <;> cases hs

/-- What the example looks at: how many calls, whether input is enabled and the mode of the terminal. -/
def released (r : Except Fault (Option (Local.St (List Nat) (List Str) Bool × Option Exn))) : Option (Nat × Bool × Bool) :=
  match r with
  | .ok (some (s, none)) => some (calls s.proc.w, s.kb.enabled, s.kb.tty)
  | _ => none

/-- `any` is entered: with the last key the handler is called, and the keyboard is released. -/
example : released (Local.run Sample.app 3 plat (fun _ => false) ((bs!"any\n").flatMap pressed ++ [.task, .task, .task]) local0) = some (0, true, false) ∧
    released (Local.run Sample.app 3 plat (fun _ => false) ((bs!"any\n").flatMap pressed ++ [.task, .task, .task, .task]) local0) = some (1, false, true) := by decide +kernel

end Verif.Props
