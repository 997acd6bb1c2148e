import Verif.Model.Keyboard
import Verif.Spec.Keys
import Verif.Props.Processor

set_option linter.unusedSimpArgs false

/-!
# Properties C43-C45 and C65-C67: the Linux keyboard
-/

namespace Verif.Props
open Spec Keyboard
open Verif.Terminal (Key)

variable {α : Type}

/-! ### C43 -/

theorem decode_append (p : Platform) (a b : Str) : ∀ pc, decode p pc (a ++ b) = ((decode p (decode p pc a).1 b).1, (decode p pc a).2 ++ (decode p (decode p pc a).1 b).2) := by
  induction a with
  | nil => intro pc; rfl
  | cons c a ih =>
    intro pc
    simp only [List.cons_append, decode]
    cases hn : next p pc c with
    | inl pc' => simp only [ih]
    | inr k => simp only [ih, List.cons_append]

theorem printable_plain {p : Platform} {c : Byte} (h : printable c = true) : Plain p c := by
  have h1 : 32 ≤ c.toNat ∧ c.toNat ≤ 126 := by simpa [printable] using h
  constructor
  · intro hm
    simp only [List.mem_cons, List.not_mem_nil, or_false] at hm
    rcases hm with rfl | rfl | rfl | rfl | rfl | rfl <;> simp at h1
  · rintro ⟨_, rfl⟩; simp at h1

theorem sends_decode {p : Platform} {k : Key} {s : Str} (h : Sends p k s) : decode p .first s = (.first, [k]) := by
  cases h with
  | @ascii c hc =>
    obtain ⟨h1, h2⟩ := hc
    simp only [List.mem_cons, List.not_mem_nil, or_false, not_or] at h1
    obtain ⟨h4, h8, h10, h12, h27, h127⟩ := h1
    simp [decode, next, h2, h4, h8, h10, h12, h27, h127]
  | _ => simp [decode, next]

/-- **C43** Whatever keys are pressed, the bytes they send are decoded to exactly these keys, in order. -/
theorem C43_decodes (p : Platform) (l : List (Key × Str)) (h : ∀ x ∈ l, Sends p x.1 x.2) : decode p .first (l.flatMap (·.2)) = (.first, l.map (·.1)) := by
  induction l with
  | nil => rfl
  | cons x l ih =>
    rw [List.flatMap_cons, decode_append, sends_decode (h x (by simp)), ih (fun y hy => h y (by simp [hy]))]
    rfl

/-- Up, then `ls`, Delete, Enter. -/
example : ∃ l : List (Key × Str), (∀ x ∈ l, Sends plat x.1 x.2) ∧ l.map (·.1) = [.up, .ascii b%'l', .ascii b%'s', .canc, .ret] ∧ l.flatMap (·.2) = 27 :: bs!"[Als" ++ 27 :: bs!"[3~\n" := by
  refine ⟨[(.up, 27 :: bs!"[A"), (.ascii b%'l', bs!"l"), (.ascii b%'s', bs!"s"), (.canc, 27 :: bs!"[3~"), (.ret, bs!"\n")], ?_, by decide, by decide⟩
  intro x hx
  simp only [List.mem_cons, List.not_mem_nil, or_false] at hx
  rcases hx with rfl | rfl | rfl | rfl | rfl
  · exact .up
  · exact .ascii (printable_plain (by decide))
  · exact .ascii (printable_plain (by decide))
  · exact .canc
  · exact .ret

/-- What has been read of the key at each place. -/
def seen : Pc → Str
  | .first => []
  | .esc => [27]
  | .csi => 27 :: bs!"["
  | .csi3 => 27 :: bs!"[3"

theorem decode_seen (p : Platform) (pc : Pc) : decode p .first (seen pc) = (pc, []) := by cases pc <;> simp [seen, decode, next]

theorem next_inl {p : Platform} {pc pc' : Pc} {c : Byte} (h : next p pc c = .inl pc') : seen pc' = seen pc ++ [c] := by
  cases pc <;> simp only [next] at h
  · repeat' split at h
    all_goals cases h
    rename_i h27
    simp [seen, h27]
  · split at h <;> cases h
    rename_i h; simp [seen, h]
  · repeat' split at h
    all_goals cases h
    rename_i h; simp [seen, h]
  · split at h <;> cases h

theorem seen_length (pc : Pc) : (seen pc).length ≤ 3 := by cases pc <;> simp [seen]

theorem chunks (p : Platform) (bytes : Str) : ∀ pc, ∃ l : List (Str × Key), ∃ pc', seen pc ++ bytes = l.flatMap (·.1) ++ seen pc' ∧ decode p pc bytes = (pc', l.map (·.2)) ∧
    ∀ x ∈ l, 1 ≤ x.1.length ∧ x.1.length ≤ 4 ∧ decode p .first x.1 = (.first, [x.2]) := by
  induction bytes with
  | nil => intro pc; exact ⟨[], pc, by simp, rfl, by simp⟩
  | cons c bytes ih =>
    intro pc
    cases hn : next p pc c with
    | inl pc1 =>
      obtain ⟨l, pc', h1, h2, h3⟩ := ih pc1
      exact ⟨l, pc', by rw [← h1, next_inl hn]; simp, by simp only [decode, hn, h2], h3⟩
    | inr k =>
      obtain ⟨l, pc', h1, h2, h3⟩ := ih .first
      refine ⟨(seen pc ++ [c], k) :: l, pc', ?_, by simp only [decode, hn, h2, List.map_cons], ?_⟩
      · rw [List.flatMap_cons, List.append_assoc, ← h1]; simp [seen]
      · intro x hx
        rcases List.mem_cons.1 hx with rfl | hx
        · have := seen_length pc
          exact ⟨by simp, by simp; omega, by rw [decode_append, decode_seen]; simp [decode, hn]⟩
        · exact h3 x hx

/-- **C43** Every byte sequence whatsoever is cut into keys of one to four bytes, each decoded by itself, followed by the beginning of an escape sequence (or nothing). -/
theorem C43_at_most_four_bytes (p : Platform) (bytes : Str) : ∃ (l : List (Str × Key)) (rest : Str),
    bytes = l.flatMap (·.1) ++ rest ∧ (decode p .first bytes).2 = l.map (·.2) ∧ rest ∈ ([[], [27], [27, 91], [27, 91, 51]] : List Str) ∧
    ∀ x ∈ l, 1 ≤ x.1.length ∧ x.1.length ≤ 4 ∧ (decode p .first x.1).2 = [x.2] := by
  obtain ⟨l, pc', h1, h2, h3⟩ := chunks p bytes .first
  refine ⟨l, seen pc', by simpa [seen] using h1, by rw [h2], by cases pc' <;> simp [seen], fun x hx => ?_⟩
  obtain ⟨a, b, c⟩ := h3 x hx
  exact ⟨a, b, by rw [c]⟩

/-- **C43** The way the bytes arrive (in what portions) does not matter. -/
theorem C43_portions (p : Platform) (a b : Str) : (decode p .first (a ++ b)).2 = (decode p .first a).2 ++ (decode p (decode p .first a).1 b).2 := by
  rw [decode_append]

theorem decode_printable (p : Platform) (s : Str) (h : Printable s) : decode p .first s = (.first, s.map Key.ascii) := by
  have := C43_decodes p (s.map (fun c => (Key.ascii c, [c]))) (by
    intro x hx
    obtain ⟨c, hc, rfl⟩ := List.mem_map.1 hx
    exact .ascii (printable_plain (h c hc)))
  simpa [List.flatMap_map, Function.comp_def] using this

/-- **C43, C42** A printable line and a newline arriving at the standard input of a local session cause that line to be executed, once. -/
theorem C43_line_executed {σ τ : Type} (A : App σ τ) (p : Platform) (fuel : Nat) (w : World σ τ) (line : Str) (h : Printable line) :
    ∃ io, Processor.run A fuel (decode p .first (line ++ bs!"\n")).2 ⟨w, ⟨[], 0⟩, true⟩ = enterLine A fuel line { w with io := io } := by
  have h1 : (decode p .first (line ++ bs!"\n")).2 = line.map Key.ascii ++ [.ret] := by
    rw [decode_append, decode_printable p line h]
    have := sends_decode (p := p) Sends.ret
    rw [this]
  rw [h1]
  refine C42_typed_line A fuel w line ?_
  intro hm
  have := h _ hm
  simp [printable] at this

/-- **C43** An ESC that does not begin `ESC [` takes the byte after it with it. -/
theorem C43_escape_swallows (p : Platform) (c : Byte) (h : c ≠ 91) (rest : Str) : (decode p .first (27 :: c :: rest)).2 = .ignored :: (decode p .first rest).2 := by
  simp [decode, next, h]

/-! ### C44 -/

/-- **C44** (part) Ctrl-D ends the session: it is decoded as end-of-file, upon which the processor does what `exit` does. Missing: the end of the standard input, see below. -/
theorem C44_ctrl_d_partial {σ τ : Type} (A : App σ τ) (p : Platform) (fuel : Nat) (q : Processor.Proc σ τ) :
    decode p .first [4] = (.first, [.eof]) ∧
    Processor.keypressed A fuel q .eof = (exitSession A q.w).map (fun r => ({ q with w := r.1 }, r.2)) := by
  refine ⟨sends_decode .eof, ?_⟩
  unfold Processor.keypressed
  simp only [Terminal.keypressed, bind, Except.bind, Processor.newCommand]
  cases exitSession A q.w <;> rfl

theorem step_closed {p : Platform} {manual : α → α} {s s' : Kb α} {e : Ev α} (h : s.closed = true ∧ s.input = [] ∧ s.reader ≠ .post .eof) (hs : step p manual s e = some s') :
    (s'.closed = true ∧ s'.input = [] ∧ s'.reader ≠ .post .eof) ∧ ∃ l, s'.posted = s.posted ++ l ∧ .eof ∉ l := by
  obtain ⟨h1, h2, h3⟩ := h
  have same : ∀ t : Kb α, t.closed = s.closed → t.input = s.input → t.reader ≠ .post .eof → t.posted = s.posted →
      (t.closed = true ∧ t.input = [] ∧ t.reader ≠ .post .eof) ∧ ∃ l, t.posted = s.posted ++ l ∧ .eof ∉ l := by
    intro t a b c d
    exact ⟨⟨a.trans h1, b.trans h2, c⟩, [], by simp [d], by simp⟩
  have zero : ∀ pc, step.after p pc 0 ≠ .post .eof := by
    intro pc
    cases pc <;> simp [step.after, next]
  cases e with
  | check => simp only [step] at hs; split at hs <;> cases hs; exact same _ rfl rfl (by simp) rfl
  | ready =>
    simp only [step] at hs
    repeat' split at hs
    all_goals cases hs
    · exact same _ rfl rfl (by simp) rfl
    · exact same _ rfl rfl (by simp) rfl
  | signal => simp only [step] at hs; split at hs <;> cases hs; exact same _ rfl rfl (by simp) rfl
  | getc =>
    simp only [step, h2, h1, if_true] at hs
    split at hs
    · cases hs; exact same _ h1.symm h2.symm (zero _) rfl
    · cases hs
  | post =>
    simp only [step] at hs
    split at hs
    · rename_i k hk
      cases hs
      refine ⟨⟨h1, h2, by simp⟩, [k], rfl, ?_⟩
      intro hm
      rw [← List.mem_singleton.1 hm] at hk
      exact h3 hk
    · cases hs
  | activate => simp only [step] at hs; cases hs; exact same _ rfl rfl h3 rfl
  | deactivate => simp only [step] at hs; cases hs; exact same _ rfl rfl h3 rfl
  | stop => simp only [step] at hs; cases hs; exact same _ rfl rfl h3 rfl
  | arrive b => simp [step, h1] at hs
  | close => simp only [step] at hs; cases hs; exact same _ h1.symm rfl h3 rfl
  | taken => simp [step, h2] at hs
  | setTty a => simp only [step] at hs; cases hs; exact same _ rfl rfl h3 rfl

theorem closed_never_eof {p : Platform} {manual : α → α} (es : List (Ev α)) : ∀ {s s' : Kb α}, (s.closed = true ∧ s.input = [] ∧ s.reader ≠ .post .eof) → steps p manual s es = some s' →
    ∃ l, s'.posted = s.posted ++ l ∧ .eof ∉ l := by
  induction es with
  | nil => intro s s' _ h; cases h; exact ⟨[], by simp, by simp⟩
  | cons e es ih =>
    intro s s' hc h
    simp only [steps] at h
    split at h
    · cases h
    · rename_i s1 h1
      obtain ⟨hc1, l1, e1, n1⟩ := step_closed hc h1
      obtain ⟨l2, e2, n2⟩ := ih hc1 h
      exact ⟨l1 ++ l2, by rw [e2, e1, List.append_assoc], by simp [n1, n2]⟩

/-- **C44 refuted** When the standard input is at its end the session never receives end-of-file, in no execution. -/
theorem C44_closed_refuted (p : Platform) (manual : α → α) (tty : α) (es : List (Ev α)) (s : Kb α) (h : steps p manual (init manual tty) (.close :: es) = some s) : .eof ∉ s.posted := by
  simp only [steps, step] at h
  obtain ⟨l, h1, h2⟩ := closed_never_eof es (s := { init manual tty with closed := true }) ⟨rfl, rfl, by simp [init]⟩ h
  rw [h1]
  simpa [init] using h2

theorem steps_append (p : Platform) (manual : α → α) (a b : List (Ev α)) : ∀ s, steps p manual s (a ++ b) = (steps p manual s a).bind (fun s' => steps p manual s' b) := by
  induction a with
  | nil => intro s; rfl
  | cons e a ih =>
    intro s
    simp only [List.cons_append, steps]
    cases step p manual s e with
    | none => rfl
    | some s1 => exact ih s1

/-- **C44 refuted** Instead the reader thread delivers NUL characters, as many as one likes. -/
theorem C44_flood (p : Platform) (manual : α → α) (tty : α) (n : Nat) : ∃ es s, steps p manual (init manual tty) (.close :: es) = some s ∧ s.posted = List.replicate n (.ascii 0) ∧
    s.reader = .wait ∧ s.enabled = true ∧ s.closed = true ∧ s.input = [] ∧ s.stopped = false := by
  induction n with
  | zero => exact ⟨[], _, rfl, rfl, rfl, rfl, rfl, rfl, rfl⟩
  | succ n ih =>
    obtain ⟨es, s, h1, h2, h3, h4, h5, h6, h7⟩ := ih
    refine ⟨es ++ [.check, .ready, .getc, .post], { s with reader := .wait, posted := s.posted ++ [.ascii 0], reads := s.reads + 1 }, ?_, ?_, rfl, h4, h5, h6, h7⟩
    · rw [← List.cons_append, steps_append, h1]
      simp [Option.bind, steps, step, h3, h4, h5, h6, h7, step.after, next]
    · simp only [h2]
      rw [← List.replicate_succ']

/-! ### C45 -/

/-- How many more bytes the thread may read without being enabled. -/
def mayRead : Reader → Nat
  | .select | .get .first => 4
  | .get .esc => 3
  | .get .csi => 2
  | .get .csi3 => 1
  | _ => 0

/-- How many more keys it may post. -/
def mayPost : Reader → Nat
  | .wait | .ended => 0
  | _ => 1

theorem after_may (p : Platform) (pc : Pc) (c : Byte) : mayRead (step.after p pc c) + 1 ≤ mayRead (.get pc) ∧ mayPost (step.after p pc c) = 1 := by
  unfold step.after
  cases hn : next p pc c with
  | inr k => cases pc <;> simp [mayRead, mayPost]
  | inl pc' =>
    cases pc <;> simp only [next] at hn
    · repeat' split at hn
      all_goals cases hn
      simp [mayRead, mayPost]
    · split at hn <;> cases hn
      simp [mayRead, mayPost]
    · repeat' split at hn
      all_goals cases hn
      simp [mayRead, mayPost]
    · split at hn <;> cases hn

/-- Not `ActivateInput`. -/
def NoActivate (e : Ev α) : Prop := match e with | .activate => False | _ => True

theorem step_disabled {p : Platform} {manual : α → α} {s s' : Kb α} {e : Ev α} (h : s.enabled = false) (he : NoActivate e) (hs : step p manual s e = some s') :
    s'.enabled = false ∧ s'.reads + mayRead s'.reader ≤ s.reads + mayRead s.reader ∧ s'.posted.length + mayPost s'.reader ≤ s.posted.length + mayPost s.reader := by
  cases e with
  | check => simp only [step] at hs; split at hs <;> cases hs; rename_i h'; rw [h] at h'; simp at h'
  | ready =>
    simp only [step] at hs
    split at hs
    · rename_i hr
      repeat' split at hs
      all_goals cases hs
      · exact ⟨h, by simp [mayRead], by simp [mayPost]⟩
      · exact ⟨h, by simp [mayRead, hr], by simp [mayPost, hr]⟩
    · cases hs
  | signal => simp only [step] at hs; split at hs <;> cases hs; exact ⟨h, by simp [mayRead], by simp [mayPost]⟩
  | getc =>
    simp only [step] at hs
    split at hs
    · rename_i pc hr
      split at hs
      · split at hs <;> cases hs
        obtain ⟨a, b⟩ := after_may p pc 0
        exact ⟨h, by simp only [hr]; omega, by simp only [hr, b]; simp [mayPost]⟩
      · rename_i c rest _
        cases hs
        obtain ⟨a, b⟩ := after_may p pc c
        exact ⟨h, by simp only [hr]; omega, by simp only [hr, b]; simp [mayPost]⟩
    · cases hs
  | post =>
    simp only [step] at hs
    split at hs
    · rename_i k hk
      cases hs
      exact ⟨h, by simp [mayRead], by simp [mayPost, hk]⟩
    · cases hs
  | activate => exact he.elim
  | deactivate => simp only [step] at hs; cases hs; exact ⟨rfl, Nat.le_refl _, Nat.le_refl _⟩
  | stop => simp only [step] at hs; cases hs; exact ⟨h, Nat.le_refl _, Nat.le_refl _⟩
  | arrive b => simp only [step] at hs; split at hs <;> cases hs; exact ⟨h, Nat.le_refl _, Nat.le_refl _⟩
  | close => simp only [step] at hs; cases hs; exact ⟨h, Nat.le_refl _, Nat.le_refl _⟩
  | taken => simp only [step] at hs; split at hs <;> cases hs; exact ⟨h, Nat.le_refl _, Nat.le_refl _⟩
  | setTty a => simp only [step] at hs; cases hs; exact ⟨h, Nat.le_refl _, Nat.le_refl _⟩

theorem steps_disabled {p : Platform} {manual : α → α} (es : List (Ev α)) : ∀ {s s' : Kb α}, s.enabled = false → (∀ e ∈ es, NoActivate e) → steps p manual s es = some s' →
    s'.enabled = false ∧ s'.reads + mayRead s'.reader ≤ s.reads + mayRead s.reader ∧ s'.posted.length + mayPost s'.reader ≤ s.posted.length + mayPost s.reader := by
  induction es with
  | nil => intro s s' h _ hs; cases hs; exact ⟨h, Nat.le_refl _, Nat.le_refl _⟩
  | cons e es ih =>
    intro s s' h he hs
    simp only [steps] at hs
    split at hs
    · cases hs
    · rename_i s1 h1
      obtain ⟨a1, b1, c1⟩ := step_disabled h (he e (by simp)) h1
      obtain ⟨a2, b2, c2⟩ := ih a1 (fun e' h' => he e' (by simp [h'])) hs
      exact ⟨a2, Nat.le_trans b2 b1, Nat.le_trans c2 c1⟩

/-- **C45** (part) From `DeactivateInput` until `ActivateInput` (between which the processor calls the command handler) the keyboard takes at most one key, of at most four bytes, in every
    interleaving; and none if the reader thread had not yet seen that input was enabled. That it takes one at all is the part refuted below. -/
theorem C45_at_most_one_key_partial (p : Platform) (manual : α → α) (s s' : Kb α) (es : List (Ev α)) (he : ∀ e ∈ es, NoActivate e)
    (h : steps p manual s (.deactivate :: es) = some s') :
    s'.posted.length ≤ s.posted.length + 1 ∧ s'.reads ≤ s.reads + 4 ∧ (s.reader = .wait → s'.posted.length ≤ s.posted.length ∧ s'.reads ≤ s.reads) := by
  simp only [steps, step] at h
  obtain ⟨_, h1, h2⟩ := steps_disabled es (s := { s with enabled := false, tty := s.oldt }) rfl he h
  have r4 : ∀ r, mayRead r ≤ 4 := by
    intro r
    cases r with
    | get pc => cases pc <;> simp [mayRead]
    | _ => simp [mayRead]
  have p1 : ∀ r, mayPost r ≤ 1 := by intro r; cases r <;> simp [mayPost]
  have := r4 s.reader
  have := p1 s.reader
  simp only at h1 h2
  refine ⟨by omega, by omega, fun hw => ?_⟩
  rw [hw] at h1 h2
  simp only [mayRead, mayPost] at h1 h2
  exact ⟨by omega, by omega⟩

/-- The number of bytes that arrive, and that others take. -/
def arriving (es : List (Ev α)) : Nat := es.countP (fun e => match e with | .arrive _ => true | _ => false)
def others (es : List (Ev α)) : Nat := es.countP (fun e => match e with | .taken => true | _ => false)

/-- The counter counts what the keyboard takes. -/
theorem reads_count {p : Platform} {manual : α → α} (es : List (Ev α)) : ∀ {s s' : Kb α}, steps p manual s es = some s' →
    s.input.length + arriving es + s.reads ≤ s'.input.length + others es + s'.reads := by
  induction es with
  | nil => intro s s' h; cases h; simp [arriving, others]
  | cons e es ih =>
    intro s s' h
    simp only [steps] at h
    split at h
    · cases h
    · rename_i s1 h1
      have ih := ih h
      have : s.input.length + arriving [e] + s.reads ≤ s1.input.length + others [e] + s1.reads := by
        cases e with
        | getc =>
          simp only [step] at h1
          split at h1
          · split at h1
            · rename_i hi
              split at h1 <;> cases h1
              simp [arriving, others, hi]
            · rename_i hi
              cases h1
              simp [arriving, others, hi]; omega
          · cases h1
        | taken =>
          simp only [step] at h1
          split at h1 <;> cases h1
          simp [arriving, others]; omega
        | arrive b =>
          simp only [step] at h1
          split at h1 <;> cases h1
          simp [arriving, others]
        | _ =>
          simp only [step] at h1
          repeat' split at h1
          all_goals cases h1
          all_goals simp [arriving, others]
      simp only [arriving, others, List.countP_cons, List.countP_nil, Nat.zero_add] at this ih ⊢
      omega

/-- **C45** (part) The bytes that were there at the time of `DeactivateInput` and those that arrive until `ActivateInput` are left to the command handler, except at most four. -/
theorem C45_bytes_left_partial (p : Platform) (manual : α → α) (s s' : Kb α) (es : List (Ev α)) (he : ∀ e ∈ es, NoActivate e) (h : steps p manual s (.deactivate :: es) = some s') :
    s.input.length + arriving es ≤ s'.input.length + others es + 4 := by
  obtain ⟨_, h1, _⟩ := C45_at_most_one_key_partial p manual s s' es he h
  have h2 := reads_count (.deactivate :: es) h
  simp only [arriving, others, List.countP_cons] at h2 ⊢
  simp at h2
  omega

/-- A handler reads `yn`, the second byte of which is taken by the keyboard. -/
example : ∃ s s' : Kb Nat, steps plat id (init id 0) [.arrive 10, .check, .ready, .getc, .post, .check] = some s ∧
    steps plat id s [.deactivate, .arrive b%'y', .arrive b%'n', .taken, .ready, .getc, .post] = some s' ∧ s'.input = [] ∧ s'.posted = [.ret, .ascii b%'n'] := ⟨_, _, rfl, rfl, rfl, rfl⟩

/-- **C45 refuted** A byte that arrives while input is deactivated is taken (the reader thread was already waiting for it): after the first key has been posted the thread goes on, as
    input is still enabled; then the processor deactivates input. -/
theorem C45_taken_refuted : ∃ (s1 s2 : Kb Nat) (es : List (Ev Nat)),
    steps plat id (init id 0) [.arrive 10, .check, .ready, .getc, .post, .check, .deactivate] = some s1 ∧ s1.posted = [.ret] ∧ s1.enabled = false ∧
    (∀ e ∈ es, NoActivate e) ∧ steps plat id s1 (.arrive b%'y' :: es) = some s2 ∧ s2.input = [] ∧ s2.posted = [.ret, .ascii b%'y'] := by
  refine ⟨_, _, [.ready, .getc, .post], rfl, rfl, rfl, ?_, rfl, rfl, rfl⟩
  simp [NoActivate]

/-! ### C65 -/

theorem reader_parked {p : Platform} {manual : α → α} (es : List (Ev α)) : ∀ {s s' : Kb α}, s.enabled = false → s.reader = .wait → (∀ e ∈ es, NoActivate e) → steps p manual s es = some s' →
    s'.reader = .wait := by
  induction es with
  | nil => intro s s' _ hr _ hs; cases hs; exact hr
  | cons e es ih =>
    intro s s' h hr he hs
    simp only [steps] at hs
    split at hs
    · cases hs
    · rename_i s1 h1
      refine ih (step_disabled h (he e (by simp)) h1).1 ?_ (fun e' h' => he e' (by simp [h'])) hs
      cases e with
      | check => simp [step, hr, h] at h1
      | ready => simp [step, hr] at h1
      | signal => simp [step, hr] at h1
      | getc => simp [step, hr] at h1
      | post => simp [step, hr] at h1
      | arrive b => simp only [step] at h1; split at h1 <;> cases h1; exact hr
      | taken => simp only [step] at h1; split at h1 <;> cases h1; exact hr
      | _ => simp only [step] at h1; cases h1; exact hr

/-- **C65 refuted** If input is deactivated when the keyboard is destroyed (for instance when an exception has left a command, see C64), the reader thread never ends, so that the destructor,
    which waits for it, never returns. -/
theorem C65_deactivated_refuted (p : Platform) (manual : α → α) (s : Kb α) (hr : s.reader = .wait) (es : List (Ev α)) (he : ∀ e ∈ es, NoActivate e) (s' : Kb α)
    (h : steps p manual s (.deactivate :: .stop :: es) = some s') : s'.reader ≠ .ended := by
  simp only [steps, step] at h
  rw [reader_parked es (s := { s with enabled := false, stopped := true, tty := s.oldt }) rfl hr he h]
  simp

/-- A command has been entered and is executed while the reader thread has not yet gone on. -/
example : ∃ s : Kb Nat, steps plat id (init id 0) [.arrive 10, .check, .ready, .getc, .post] = some s ∧ s.reader = .wait ∧
    (steps plat id s [.deactivate, .stop, .arrive b%'a']).isSome := ⟨_, rfl, rfl, rfl⟩

/-- The thread's own steps. -/
def Own (e : Ev α) : Prop := match e with | .check | .ready | .getc | .post => True | _ => False

/-- Nothing more arrives at the standard input. -/
def NoInput (e : Ev α) : Prop := match e with | .arrive _ | .close => False | _ => True

theorem reader_blocked {p : Platform} {manual : α → α} (es : List (Ev α)) : ∀ {s s' : Kb α} {pc : Pc}, s.reader = .get pc → s.input = [] → s.closed = false → (∀ e ∈ es, NoInput e) →
    steps p manual s es = some s' → s'.reader = .get pc := by
  induction es with
  | nil => intro s s' pc hr _ _ _ hs; cases hs; exact hr
  | cons e es ih =>
    intro s s' pc hr hi hc he hs
    simp only [steps] at hs
    split at hs
    · cases hs
    · rename_i s1 h1
      have he1 := he e (by simp)
      have : s1.reader = .get pc ∧ s1.input = [] ∧ s1.closed = false := by
        cases e with
        | check => simp [step, hr] at h1
        | ready => simp [step, hr] at h1
        | signal => simp [step, hr] at h1
        | getc => simp [step, hr, hi, hc] at h1
        | post => simp [step, hr] at h1
        | activate => simp only [step] at h1; cases h1; exact ⟨hr, hi, hc⟩
        | deactivate => simp only [step] at h1; cases h1; exact ⟨hr, hi, hc⟩
        | stop => simp only [step] at h1; cases h1; exact ⟨hr, hi, hc⟩
        | arrive b => exact he1.elim
        | close => exact he1.elim
        | taken => simp [step, hi] at h1
        | setTty a => simp only [step] at h1; cases h1; exact ⟨hr, hi, hc⟩
      exact ih this.1 this.2.1 this.2.2 (fun e' h' => he e' (by simp [h'])) hs

/-- **C65 refuted** If the Escape key was the last one pressed, the reader thread is in `read`, not in `select`; the destructor does not return before something else is typed. -/
theorem C65_escape_refuted (p : Platform) (manual : α → α) (tty : α) (es : List (Ev α)) (he : ∀ e ∈ es, NoInput e) (s' : Kb α)
    (h : steps p manual (init manual tty) (.arrive 27 :: .check :: .ready :: .getc :: .stop :: es) = some s') : s'.reader ≠ .ended := by
  have e1 : steps p manual (init manual tty) [.arrive 27, .check, .ready, .getc, .stop] =
      some { (init manual tty) with reader := .get .esc, reads := 1, stopped := true, tty := tty } := by
    simp [steps, step, init, step.after, next]
  have e2 := steps_append p manual [.arrive 27, .check, .ready, .getc, .stop] es (init manual tty)
  rw [e1] at e2
  simp only [Option.bind_some] at e2
  have e3 : steps p manual (init manual tty) (.arrive 27 :: .check :: .ready :: .getc :: .stop :: es) = _ := e2
  rw [h] at e3
  rw [reader_blocked es rfl rfl rfl he e3.symm]
  simp

example : ∃ s : Kb Nat, steps plat id (init id 0) [.arrive 27, .check, .ready, .getc, .stop, .deactivate] = some s ∧ s.reader = .get .esc := ⟨_, rfl, rfl⟩

/-- Steps the thread still has to make once it has been told to stop. -/
def rank : Reader → Nat
  | .ended => 0
  | .select => 1
  | .wait => 2
  | .post _ => 3
  | .get .csi3 => 4
  | .get .csi => 5
  | .get .esc => 6
  | .get .first => 7

theorem after_rank (p : Platform) (pc : Pc) (c : Byte) : rank (step.after p pc c) < rank (.get pc) := by
  unfold step.after
  cases hn : next p pc c with
  | inr k => cases pc <;> simp [rank]
  | inl pc' =>
    cases pc <;> simp only [next] at hn
    · repeat' split at hn
      all_goals cases hn
      simp [rank]
    · split at hn <;> cases hn
      simp [rank]
    · repeat' split at hn
      all_goals cases hn
      simp [rank]
    · split at hn <;> cases hn

/-- **C65** (part) Once the destructor has told the thread to stop, and provided that input is enabled, the thread makes at most seven more steps; and as long as it has not ended it can make
    one, unless it is in the middle of a key (and nothing more arrives). Missing: the two cases refuted above. -/
theorem C65_joins_partial (p : Platform) (manual : α → α) (s : Kb α) (hs : s.stopped = true) (he : s.enabled = true) :
    (∀ es s', (∀ e ∈ es, Own e) → steps p manual s es = some s' → es.length + rank s'.reader ≤ rank s.reader) ∧
    (s.reader ≠ .ended → (s.input ≠ [] ∨ s.closed = true ∨ ∀ pc, s.reader ≠ .get pc) → ∃ e, Own e ∧ (step p manual s e).isSome) := by
  constructor
  · intro es
    induction es generalizing s with
    | nil => intro s' _ h; cases h; simp
    | cons e es ih =>
      intro s' ho h
      simp only [steps] at h
      split at h
      · cases h
      · rename_i s1 h1
        have ho1 := ho e (by simp)
        have key : rank s1.reader < rank s.reader ∧ s1.stopped = true ∧ s1.enabled = true := by
          cases e with
          | check => simp only [step] at h1; split at h1 <;> cases h1; rename_i hr; exact ⟨by simp [rank, hr.1], hs, he⟩
          | ready => simp only [step, hs, if_true] at h1; split at h1 <;> cases h1; rename_i hr; exact ⟨by simp [rank, hr], rfl, he⟩
          | getc =>
            simp only [step] at h1
            split at h1
            · rename_i pc hr
              split at h1
              · split at h1 <;> cases h1
                exact ⟨by rw [hr]; exact after_rank p pc 0, hs, he⟩
              · cases h1; exact ⟨by rw [hr]; exact after_rank p pc _, hs, he⟩
            · cases h1
          | post =>
            simp only [step] at h1
            split at h1
            · rename_i k hr; cases h1; exact ⟨by rw [hr]; simp [rank], hs, he⟩
            · cases h1
          | _ => exact ho1.elim
        have := ih s1 key.2.1 key.2.2 s' (fun e' h' => ho e' (by simp [h'])) h
        rw [List.length_cons]
        omega
  · intro hn hi
    cases hr : s.reader with
    | ended => exact absurd hr hn
    | wait => exact ⟨.check, trivial, by simp [step, hr, he]⟩
    | select => exact ⟨.ready, trivial, by simp [step, hr, hs]⟩
    | post k => exact ⟨.post, trivial, by simp [step, hr]⟩
    | get pc =>
      refine ⟨.getc, trivial, ?_⟩
      cases hin : s.input with
      | cons c rest => simp [step, hr, hin]
      | nil =>
        rcases hi with h | h | h
        · exact absurd hin h
        · simp [step, hr, hin, h]
        · exact absurd hr (h pc)

example : ∃ s : Kb Nat, steps plat id (init id 0) [.arrive b%'a', .check, .ready, .getc, .stop, .post, .check, .ready] = some s ∧ s.reader = .ended ∧ s.posted = [.ascii b%'a'] := ⟨_, rfl, rfl, rfl⟩

/-! ### C66 -/

/-- **C66** (part) The reader thread does not end before the keyboard is destroyed, if `select` is never interrupted. -/
theorem C66_reader_lives_partial (p : Platform) (manual : α → α) (tty : α) (es : List (Ev α)) (s : Kb α) (hsig : .signal ∉ es) (hstop : .stop ∉ es)
    (h : steps p manual (init manual tty) es = some s) : s.reader ≠ .ended := by
  have gen : ∀ (es : List (Ev α)) (s0 s : Kb α), .signal ∉ es → .stop ∉ es → s0.reader ≠ .ended → s0.stopped = false → steps p manual s0 es = some s → s.reader ≠ .ended := by
    intro es
    induction es with
    | nil => intro s0 s _ _ h0 _ h; cases h; exact h0
    | cons e es ih =>
      intro s0 s h1 h2 h0 hs h
      simp only [steps] at h
      split at h
      · cases h
      · rename_i s1 hs1
        have key : s1.reader ≠ .ended ∧ s1.stopped = false := by
          cases e with
          | check => simp only [step] at hs1; split at hs1 <;> cases hs1; exact ⟨by simp, hs⟩
          | ready =>
            simp only [step, hs] at hs1
            repeat' split at hs1
            all_goals first | (cases hs1; done) | skip
            all_goals first | (rename_i hx; cases hx; done) | (cases hs1; exact ⟨by simp, rfl⟩)
          | signal => exact absurd (List.mem_cons_self ..) h1
          | stop => exact absurd (List.mem_cons_self ..) h2
          | getc =>
            have af : ∀ pc c, step.after p pc c ≠ .ended := by
              intro pc c; unfold step.after; split <;> simp
            simp only [step] at hs1
            split at hs1
            · split at hs1
              · split at hs1 <;> cases hs1
                exact ⟨af _ _, hs⟩
              · cases hs1; exact ⟨af _ _, hs⟩
            · cases hs1
          | post => simp only [step] at hs1; split at hs1 <;> cases hs1; exact ⟨by simp, hs⟩
          | activate => simp only [step] at hs1; cases hs1; exact ⟨h0, hs⟩
          | deactivate => simp only [step] at hs1; cases hs1; exact ⟨h0, hs⟩
          | arrive b => simp only [step] at hs1; split at hs1 <;> cases hs1; exact ⟨h0, hs⟩
          | close => simp only [step] at hs1; cases hs1; exact ⟨h0, hs⟩
          | taken => simp only [step] at hs1; split at hs1 <;> cases hs1; exact ⟨h0, hs⟩
          | setTty a => simp only [step] at hs1; cases hs1; exact ⟨h0, hs⟩
        exact ih s1 s (fun hm => h1 (List.mem_cons_of_mem _ hm)) (fun hm => h2 (List.mem_cons_of_mem _ hm)) key.1 key.2 h
  exact gen es _ s hsig hstop (by simp [init]) rfl h

/-- **C66 refuted** A signal that interrupts `select` ends the reader thread: nothing that is typed afterwards reaches the session, in no execution. -/
theorem C66_signal_refuted (p : Platform) (manual : α → α) (tty : α) (es : List (Ev α)) (s : Kb α) (h : steps p manual (init manual tty) (.check :: .signal :: es) = some s) : s.posted = [] := by
  have gen : ∀ (es : List (Ev α)) (s0 s : Kb α), s0.reader = .ended → steps p manual s0 es = some s → s.posted = s0.posted := by
    intro es
    induction es with
    | nil => intro s0 s _ h; cases h; rfl
    | cons e es ih =>
      intro s0 s h0 h
      simp only [steps] at h
      split at h
      · cases h
      · rename_i s1 hs1
        have key : s1.reader = .ended ∧ s1.posted = s0.posted := by
          cases e with
          | check => simp [step, h0] at hs1
          | ready => simp [step, h0] at hs1
          | signal => simp [step, h0] at hs1
          | getc => simp [step, h0] at hs1
          | post => simp [step, h0] at hs1
          | arrive b => simp only [step] at hs1; split at hs1 <;> cases hs1; exact ⟨h0, rfl⟩
          | taken => simp only [step] at hs1; split at hs1 <;> cases hs1; exact ⟨h0, rfl⟩
          | _ => simp only [step] at hs1; cases hs1; exact ⟨h0, rfl⟩
        rw [ih s1 s key.1 h, key.2]
  have e : steps p manual (init manual tty) (.check :: .signal :: es) = steps p manual { init manual tty with reader := .ended } es := rfl
  rw [e] at h
  exact gen es _ s rfl h

example : ∃ s : Kb Nat, steps plat id (init id 0) [.check, .signal, .arrive b%'a', .deactivate, .activate] = some s ∧ s.posted = [] ∧ s.stopped = false := ⟨_, rfl, rfl, rfl⟩

/-! ### C67 -/

/-- `ActivateInput` is called only when input is deactivated (as the processor does); the keyboard is not destroyed; other code leaves the attributes of the terminal alone. The flag says whether
    input is active. -/
def Proper : Bool → List (Ev α) → Prop
  | _, [] => True
  | a, .activate :: es => a = false ∧ Proper true es
  | _, .deactivate :: es => Proper false es
  | _, .setTty _ :: _ => False
  | _, .stop :: _ => False
  | a, _ :: es => Proper a es

theorem tty_run {p : Platform} {manual : α → α} (t : α) (es : List (Ev α)) : ∀ (s s' : Kb α), s.oldt = t → s.tty = (if s.enabled then manual t else t) → Proper s.enabled es →
    steps p manual s es = some s' → s'.oldt = t ∧ s'.tty = (if s'.enabled then manual t else t) := by
  induction es with
  | nil => intro s s' h1 h2 _ h; cases h; exact ⟨h1, h2⟩
  | cons e es ih =>
    intro s s' h1 h2 hp h
    simp only [steps] at h
    split at h
    · cases h
    · rename_i s1 hs1
      have same : ∀ u : Kb α, some u = some s1 → u.oldt = s.oldt → u.tty = s.tty → u.enabled = s.enabled → Proper s.enabled es → s'.oldt = t ∧ s'.tty = (if s'.enabled then manual t else t) := by
        intro u hu a b c d
        cases hu
        exact ih s1 s' (a.trans h1) (by rw [b, c]; exact h2) (by rw [c]; exact d) h
      cases e with
      | check => simp only [step] at hs1; split at hs1 <;> first | (cases hs1; done) | exact same _ hs1 rfl rfl rfl hp
      | ready =>
        simp only [step] at hs1
        repeat' split at hs1
        all_goals first | (cases hs1; done) | exact same _ hs1 rfl rfl rfl hp
      | signal => simp only [step] at hs1; split at hs1 <;> first | (cases hs1; done) | exact same _ hs1 rfl rfl rfl hp
      | getc =>
        simp only [step] at hs1
        repeat' split at hs1
        all_goals first | (cases hs1; done) | exact same _ hs1 rfl rfl rfl hp
      | post => simp only [step] at hs1; split at hs1 <;> first | (cases hs1; done) | exact same _ hs1 rfl rfl rfl hp
      | arrive b => simp only [step] at hs1; split at hs1 <;> first | (cases hs1; done) | exact same _ hs1 rfl rfl rfl hp
      | taken => simp only [step] at hs1; split at hs1 <;> first | (cases hs1; done) | exact same _ hs1 rfl rfl rfl hp
      | close => simp only [step] at hs1; exact same _ hs1 rfl rfl rfl hp
      | stop => exact hp.elim
      | setTty a => exact hp.elim
      | activate =>
        simp only [step] at hs1
        cases hs1
        have hd : s.enabled = false := hp.1
        rw [hd] at h2
        exact ih _ s' h2 (by simp only [if_true]; rw [h2]; rfl) hp.2 h
      | deactivate =>
        simp only [step] at hs1
        cases hs1
        exact ih { s with enabled := false, tty := s.oldt } s' h1 h1 hp h

/-- **C67** While a command runs (input is deactivated) the terminal has the attributes it had before the session was created; otherwise it is in raw mode without echo. -/
theorem C67_mode (p : Platform) (manual : α → α) (tty : α) (es : List (Ev α)) (s : Kb α) (hp : Proper true es) (h : steps p manual (init manual tty) es = some s) :
    s.tty = (if s.enabled then manual tty else tty) :=
  (tty_run tty es (init manual tty) s rfl rfl hp h).2

/-- **C67** The destructor restores the attributes. -/
theorem C67_restored (p : Platform) (manual : α → α) (tty : α) (es : List (Ev α)) (s : Kb α) (hp : Proper true es) (h : steps p manual (init manual tty) (es ++ [.stop]) = some s) : s.tty = tty := by
  rw [steps_append] at h
  cases h1 : steps p manual (init manual tty) es with
  | none => rw [h1] at h; cases h
  | some s1 =>
    rw [h1] at h
    have h2 := (tty_run tty es (init manual tty) s1 rfl rfl hp h1).1
    simp only [Option.bind_some, steps, step] at h
    cases h
    exact h2

/-- Attributes are numbers here, and raw mode is 7. -/
example : Proper (α := Nat) true [.arrive 10, .check, .ready, .getc, .post, .deactivate, .activate, .check] := by simp [Proper]
example : ∃ s : Kb Nat, steps plat (fun _ => 7) (init (fun _ => 7) 3) [.arrive 10, .check, .ready, .getc, .post, .deactivate, .activate, .check] = some s ∧ s.tty = 7 ∧ s.oldt = 3 := ⟨_, rfl, rfl, rfl⟩

end Verif.Props
