import Verif.Model.Program
import Verif.Props.LocalSession

set_option linter.unusedSimpArgs false

/-!
# Property C90: the program whose exit action stops its scheduler
-/

namespace Verif.Props
open Spec Program
open Keyboard (Kb decode)
open Terminal (Key)

variable {σ τ α : Type}

/-- What is typed. -/
def Program.typed : List (Program.Ev α) → Str
  | [] => []
  | .kb (.arrive b) :: es => b :: typed es
  | _ :: es => typed es

/-- The standard input is not closed, no other code reads from it, and no signal interrupts the reader thread. -/
def Calm (e : Program.Ev α) : Prop :=
  match e with
  | .kb .close | .kb .taken | .kb .signal => False
  | _ => True

/-- A proper state of the program. -/
structure InTurn (A : App σ τ) (stopped : σ → Bool) (fuel : Nat) (p : Platform) (q0 : Processor.Proc σ τ) (arr : Str) (s : Program.St σ τ α) : Prop where
  typing : Typing A fuel p q0 arr s.loc none
  first : ∀ k, k < s.loc.handled → ∀ q x, Processor.run A fuel (s.loc.kb.posted.take k) q0 = .ok (q, x) → stopped q.w.app = false
  after : s.phase ≠ .run → stopped s.loc.proc.w.app = true ∧ s.loc.busy = false
  flag : s.loc.kb.stopped = true ↔ s.phase = .joining ∨ s.phase = .over
  ended : s.loc.kb.reader = .ended → s.loc.kb.stopped = true
  over : s.phase = .over → s.loc.kb.reader = .ended
  avail : s.loc.kb.reader = .get .first → s.loc.kb.input ≠ []

theorem Program.typed_cons (e : Program.Ev α) (es : List (Program.Ev α)) : Program.typed (e :: es) = Program.typed [e] ++ Program.typed es := by
  cases e with
  | kb e => cases e <;> rfl
  | _ => rfl

theorem kb_stopped {p : Platform} {manual : α → α} {kb k : Kb α} {e : Keyboard.Ev α} (ho : Local.ownStep e = true) (h : Keyboard.step p manual kb e = some k) : k.stopped = kb.stopped := by
  cases e with
  | activate => simp [Local.ownStep] at ho
  | deactivate => simp [Local.ownStep] at ho
  | stop => simp [Local.ownStep] at ho
  | ready =>
    simp only [Keyboard.step] at h
    split at h
    · split at h
      · cases h; rfl
      · split at h <;> cases h
        rfl
    · cases h
  | getc =>
    simp only [Keyboard.step] at h
    split at h
    · split at h
      · split at h <;> cases h
        rfl
      · cases h; rfl
    · cases h
  | post => simp only [Keyboard.step] at h; split at h <;> cases h; rfl
  | arrive b => simp only [Keyboard.step] at h; split at h <;> cases h; rfl
  | check => simp only [Keyboard.step] at h; split at h <;> cases h; rfl
  | signal => simp only [Keyboard.step] at h; split at h <;> cases h; rfl
  | taken => simp only [Keyboard.step] at h; split at h <;> cases h; rfl
  | close => simp only [Keyboard.step] at h; cases h; rfl
  | setTty a => simp only [Keyboard.step] at h; cases h; rfl

/-- The reader thread ends only when it has been told to, and stays ended. -/
theorem kb_ended {p : Platform} {manual : α → α} {kb k : Kb α} {e : Keyboard.Ev α} (hc : Calm (Program.Ev.kb e)) (h : Keyboard.step p manual kb e = some k) :
    (k.reader = .ended → kb.reader = .ended ∨ kb.stopped = true) ∧ (kb.reader = .ended → k.reader = .ended) ∧ (kb.posted <+: k.posted) := by
  cases e with
  | activate => simp only [Keyboard.step] at h; cases h; exact ⟨.inl, id, List.prefix_refl _⟩
  | deactivate => simp only [Keyboard.step] at h; cases h; exact ⟨.inl, id, List.prefix_refl _⟩
  | stop => simp only [Keyboard.step] at h; cases h; exact ⟨.inl, id, List.prefix_refl _⟩
  | ready =>
    simp only [Keyboard.step] at h
    split at h
    · rename_i hr
      split at h
      · rename_i hs; cases h; exact ⟨fun _ => .inr hs, fun _ => rfl, List.prefix_refl _⟩
      · split at h <;> cases h
        exact ⟨fun h => (by cases h), fun h => by (rw [hr] at h; cases h), List.prefix_refl _⟩
    · cases h
  | getc =>
    have hn : ∀ pc c, Keyboard.step.after p pc c ≠ .ended := by
      intro pc c
      unfold Keyboard.step.after
      split <;> simp
    simp only [Keyboard.step] at h
    split at h
    · rename_i hr
      split at h
      · split at h <;> cases h
        exact ⟨fun h => absurd h (hn _ _), fun h => by (rw [hr] at h; cases h), List.prefix_refl _⟩
      · cases h; exact ⟨fun h => absurd h (hn _ _), fun h => by (rw [hr] at h; cases h), List.prefix_refl _⟩
    · cases h
  | post =>
    simp only [Keyboard.step] at h
    split at h
    · rename_i hr
      cases h
      exact ⟨fun h => by (simp at h), fun h => by (rw [hr] at h; cases h), List.prefix_append _ _⟩
    · cases h
  | arrive b => simp only [Keyboard.step] at h; split at h <;> cases h; exact ⟨.inl, id, List.prefix_refl _⟩
  | check =>
    simp only [Keyboard.step] at h
    split at h <;> cases h
    rename_i hr
    exact ⟨fun h => by (simp at h), fun h => by (rw [hr.1] at h; cases h), List.prefix_refl _⟩
  | signal => exact hc.elim
  | taken => exact hc.elim
  | close => exact hc.elim
  | setTty a => simp only [Keyboard.step] at h; cases h; exact ⟨.inl, id, List.prefix_refl _⟩

/-- When the reader thread begins to read a key, there is something to read. -/
theorem kb_avail {p : Platform} {manual : α → α} {kb k : Kb α} {e : Keyboard.Ev α} (hc : Calm (Program.Ev.kb e)) (h : Keyboard.step p manual kb e = some k) (ho : kb.closed = false)
    (ha : kb.reader = .get .first → kb.input ≠ []) : k.reader = .get .first → k.input ≠ [] := by
  cases e with
  | activate => simp only [Keyboard.step] at h; cases h; exact ha
  | deactivate => simp only [Keyboard.step] at h; cases h; exact ha
  | stop => simp only [Keyboard.step] at h; cases h; exact ha
  | ready =>
    simp only [Keyboard.step] at h
    split at h
    · split at h
      · cases h; intro h; cases h
      · split at h
        · rename_i hi
          cases h
          rw [ho] at hi
          intro _
          simpa using hi
        · cases h
    · cases h
  | getc =>
    have hn : ∀ pc c, Keyboard.step.after p pc c ≠ .get .first := by
      intro pc c hx
      unfold Keyboard.step.after at hx
      split at hx
      · rename_i pc' hp
        cases hx
        unfold Keyboard.next at hp
        split at hp
        all_goals (repeat' split at hp) <;> cases hp
      · cases hx
    simp only [Keyboard.step] at h
    split at h
    · split at h
      · split at h <;> cases h
        exact fun h => absurd h (hn _ _)
      · cases h; exact fun h => absurd h (hn _ _)
    · cases h
  | post => simp only [Keyboard.step] at h; split at h <;> cases h; intro h; cases h
  | arrive b => simp only [Keyboard.step] at h; split at h <;> cases h; intro _; simp
  | check => simp only [Keyboard.step] at h; split at h <;> cases h; intro h; cases h
  | signal => exact hc.elim
  | taken => exact hc.elim
  | close => exact hc.elim
  | setTty a => simp only [Keyboard.step] at h; cases h; exact ha

theorem take_of_prefix {β : Type} {a b : List β} (h : a <+: b) {k : Nat} (hk : k ≤ a.length) : b.take k = a.take k := by
  obtain ⟨t, rfl⟩ := h
  rw [List.take_append_of_le_length hk]

theorem inTurn_step {A : App σ τ} {stopped : σ → Bool} {fuel : Nat} {p : Platform} {manual : α → α} {q0 : Processor.Proc σ τ} {arr : Str} {s s' : Program.St σ τ α}
    (h : InTurn A stopped fuel p q0 arr s) {e : Program.Ev α} (hc : Calm e) (hs : Program.step A stopped fuel p manual s e = .ok (some (s', none))) :
    InTurn A stopped fuel p q0 (arr ++ Program.typed [e]) s' := by
  cases e with
  | kb e =>
    simp only [Program.step, Program.step.lift] at hs
    split at hs
    · cases hs
    · cases hs
    · rename_i l x hl
      cases hs
      have hu : Undisturbed (Local.Ev.kb e) := by cases e <;> first | exact hc | trivial
      have ht := typing_step h.typing hu hl
      have htb : typedBytes [Local.Ev.kb e] = Program.typed [Program.Ev.kb e] := by cases e <;> rfl
      rw [htb] at ht
      simp only [Local.step] at hl
      split at hl
      · rename_i ho
        split at hl
        · cases hl
        · rename_i k hk
          cases hl
          have h1 := kb_stopped ho hk
          obtain ⟨h2, h3, h4⟩ := kb_ended hc hk
          refine ⟨ht, ?_, h.after, by simpa only [h1] using h.flag, ?_, fun ho => h3 (h.over ho), kb_avail hc hk h.typing.opened h.avail⟩
          · intro j hj q x hq
            have hj' : j ≤ s.loc.kb.posted.length := Nat.le_trans (Nat.le_of_lt hj) h.typing.handled
            rw [show ({ s.loc with kb := k } : Local.St σ τ α).kb.posted.take j = s.loc.kb.posted.take j from take_of_prefix h4 hj'] at hq
            exact h.first j hj q x hq
          · intro he
            show k.stopped = true
            rw [h1]
            rcases h2 he with h5 | h5
            · exact h.ended h5
            · exact h5
      · cases hl
  | task =>
    simp only [Program.step] at hs
    split at hs
    · rename_i hcond
      simp only [Program.step.lift] at hs
      split at hs
      · cases hs
      · cases hs
      · rename_i l x hl
        cases hs
        have ht := typing_step h.typing (show Undisturbed (Local.Ev.task : Local.Ev α) from trivial) hl
        simp only [Local.step] at hl
        split at hl
        · cases hl
        · split at hl
          · cases hl
          · rename_i key hkey
            simp only [h.typing.live, if_true] at hl
            split at hl
            · cases hl
            · rename_i q x' hq
              have hfirst : ∀ (l : Local.St σ τ α), l.handled = s.loc.handled + 1 → l.kb.posted = s.loc.kb.posted →
                  ∀ k, k < l.handled → ∀ q x, Processor.run A fuel (l.kb.posted.take k) q0 = .ok (q, x) → stopped q.w.app = false := by
                intro l e1 e2 k hk q x hq
                rw [e2] at hq
                rw [e1] at hk
                by_cases hk' : k = s.loc.handled
                · subst hk'
                  rw [h.typing.proc] at hq
                  cases hq
                  exact hcond.2
                · exact h.first k (by omega) q x hq
              split at hl
              · cases hl
                exact ⟨ht, hfirst _ rfl rfl, fun hne => absurd hcond.1 hne, h.flag, h.ended, h.over, h.avail⟩
              · cases hl
                exact ⟨ht, hfirst _ rfl rfl, fun hne => absurd hcond.1 hne, h.flag, h.ended, h.over, h.avail⟩
    · cases hs
  | done =>
    simp only [Program.step] at hs
    split at hs
    · rename_i hcond
      simp only [Program.step.lift] at hs
      split at hs
      · cases hs
      · cases hs
      · rename_i l x hl
        cases hs
        have ht := typing_step h.typing (show Undisturbed (Local.Ev.done : Local.Ev α) from trivial) hl
        simp only [Local.step, Keyboard.step] at hl
        split at hl
        · cases hl
          exact ⟨ht, h.first, fun hne => absurd hcond hne, h.flag, h.ended, h.over, h.avail⟩
        · cases hl
    · cases hs
  | ret =>
    simp only [Program.step] at hs
    split at hs
    · rename_i hcond
      cases hs
      refine ⟨by simpa [Program.typed] using h.typing, h.first, fun _ => ⟨hcond.2.2, hcond.2.1⟩, ?_, h.ended, fun ho => (by cases ho), h.avail⟩
      rw [h.flag, hcond.1]; simp
    · cases hs
  | destroy =>
    simp only [Program.step, Keyboard.step] at hs
    split at hs
    · rename_i hcond
      cases hs
      obtain ⟨⟨r, g1, g2⟩, g3, g4, g5, g6, g7⟩ := h.typing
      refine ⟨⟨⟨r, by simpa [Program.typed] using g1, decoded_tty g2 rfl rfl⟩, g3, g4, g5, g6, g7⟩, h.first, fun _ => h.after (by rw [hcond]; simp), ?_, fun _ => rfl, fun ho => (by cases ho), h.avail⟩
      simp
    · cases hs
  | join =>
    simp only [Program.step] at hs
    split at hs
    · rename_i hcond
      cases hs
      refine ⟨by simpa [Program.typed] using h.typing, h.first, fun _ => h.after (by rw [hcond.1]; simp), ?_, h.ended, fun _ => hcond.2, h.avail⟩
      rw [h.flag, hcond.1]; simp
    · cases hs

theorem inTurn_run {A : App σ τ} {stopped : σ → Bool} {fuel : Nat} {p : Platform} {manual : α → α} {q0 : Processor.Proc σ τ} (es : List (Program.Ev α)) : ∀ {arr : Str} {s s' : Program.St σ τ α},
    InTurn A stopped fuel p q0 arr s → (∀ e ∈ es, Calm e) → Program.run A stopped fuel p manual es s = .ok (some (s', none)) → InTurn A stopped fuel p q0 (arr ++ Program.typed es) s' := by
  induction es with
  | nil => intro arr s s' h _ hs; cases hs; simpa [Program.typed] using h
  | cons e es ih =>
    intro arr s s' h hc hs
    simp only [Program.run] at hs
    split at hs
    · cases hs
    · cases hs
    · cases hs
    · rename_i s1 h1
      have := ih (inTurn_step h (hc e (by simp)) h1) (fun e he => hc e (by simp [he])) hs
      rw [Program.typed_cons, ← List.append_assoc]; exact this

theorem inTurn_create {A : App σ τ} {stopped : σ → Bool} {fuel : Nat} {p : Platform} {manual : α → α} {tty : α} {n : Nat} {w : World σ τ} {io : Io} {l : Local.St σ τ α}
    (h : Local.create A manual tty n w io = .ok (l, none)) : InTurn A stopped fuel p l.proc [] ⟨l, .run⟩ := by
  have ht := typing_create (fuel := fuel) (p := p) h
  unfold Local.create at h
  split at h
  · cases h
  · split at h
    · cases h
    · cases h
      exact ⟨ht, fun k hk => absurd hk (Nat.not_lt_zero _), fun h => absurd rfl h, by simp [Keyboard.init], by simp [Keyboard.init], fun h => (by cases h), by simp [Keyboard.init]⟩

theorem decoded_prefix {p : Platform} {r inp : Str} {kb : Kb α} (h : Decoded p r kb) : kb.posted <+: (decode p .first (r ++ inp)).2 := by
  rw [decode_append]
  refine List.IsPrefix.trans ?_ (List.prefix_append _ _)
  unfold Decoded at h
  split at h <;> rw [h]
  · exact List.prefix_refl _
  · exact List.prefix_refl _
  · exact List.prefix_refl _
  · exact List.prefix_refl _
  · exact List.prefix_append _ _

/-- **C90** In every interleaving of the main thread, the reader thread and the typing, the keys handled are the first ones of those typed, in order, and only the last of them can have stopped the scheduler: nothing typed after
    it is handled. If the scheduler has been left, the last one has stopped it. -/
theorem C90_nothing_after_exit (A : App σ τ) (stopped : σ → Bool) (fuel : Nat) (p : Platform) (manual : α → α) (tty : α) (n : Nat) (w : World σ τ) (io : Io) (l : Local.St σ τ α) (s : Program.St σ τ α)
    (es : List (Program.Ev α)) (h0 : Local.create A manual tty n w io = .ok (l, none)) (hc : ∀ e ∈ es, Calm e) (h : Program.run A stopped fuel p manual es ⟨l, .run⟩ = .ok (some (s, none))) :
    ∃ keys, keys <+: (decode p .first (Program.typed es)).2 ∧ Processor.run A fuel keys l.proc = .ok (s.loc.proc, none) ∧
      (∀ k, k < keys.length → ∀ q x, Processor.run A fuel (keys.take k) l.proc = .ok (q, x) → stopped q.w.app = false) ∧ (s.phase ≠ .run → stopped s.loc.proc.w.app = true) := by
  have g := inTurn_run es (inTurn_create (stopped := stopped) (fuel := fuel) (p := p) h0) hc h
  rw [List.nil_append] at g
  obtain ⟨r, g1, g2⟩ := g.typing.read
  refine ⟨_, (List.take_prefix _ _).trans ?_, g.typing.proc, ?_, fun hp => (g.after hp).1⟩
  · rw [g1]; exact decoded_prefix g2
  · intro k hk q x hq
    have hk' : k < s.loc.handled := Nat.lt_of_lt_of_le hk (by simp; omega)
    rw [List.take_take, Nat.min_eq_left (Nat.le_of_lt hk')] at hq
    exact g.first k hk' q x hq

/-! ### Lines -/

/-- The session gets from `w` to `w'` when the lines are entered: each is executed, and then there is a prompt. (The output also contains the echo of what is typed.) -/
inductive FedLines (A : App σ τ) (fuel : Nat) : World σ τ → List Str → World σ τ → Prop
  | nil (w : World σ τ) : FedLines A fuel w [] w
  | cons {w w' : World σ τ} {line : Str} {rest : List Str} {io : Io} {q : Processor.Proc σ τ} (h : enterLine A fuel line { w with io := io } = .ok (q, none)) (hr : FedLines A fuel q.w rest w') :
      FedLines A fuel w (line :: rest) w'

/-- The keys of lines typed. -/
def lineKeys (lines : List Str) : List Key := lines.flatMap (fun l => l.map Key.ascii ++ [.ret])

theorem decode_lines (p : Platform) (lines : List Str) (hl : ∀ l ∈ lines, Printable l) (rest : Str) :
    (decode p .first (lines.flatMap (fun l => l ++ bs!"\n") ++ rest)).2 = lineKeys lines ++ (decode p .first rest).2 := by
  induction lines with
  | nil => rfl
  | cons l lines ih =>
    have h1 : decode p .first (l ++ bs!"\n") = (.first, l.map Key.ascii ++ [.ret]) := by
      rw [decode_append, decode_printable p l (hl l (by simp))]
      have := sends_decode (p := p) Sends.ret
      rw [this]
    rw [List.flatMap_cons, List.append_assoc, decode_append, h1]
    simp only
    rw [ih (fun l h => hl l (by simp [h]))]
    simp [lineKeys]

theorem enterLine_ready {A : App σ τ} {fuel : Nat} {line : Str} {w : World σ τ} {q : Processor.Proc σ τ} (h : enterLine A fuel line w = .ok (q, none)) : q = ⟨q.w, ⟨[], 0⟩, true⟩ := by
  unfold enterLine at h
  split at h
  · cases h
  · cases h
  · split at h <;> cases h
    rfl

theorem proc_run_append (A : App σ τ) (fuel : Nat) (ks more : List Key) (q : Processor.Proc σ τ) : Processor.run A fuel (ks ++ more) q =
    match Processor.run A fuel ks q with
    | .error f => .error f
    | .ok (q, some e) => .ok (q, some e)
    | .ok (q, none) => Processor.run A fuel more q := by
  induction ks generalizing q with
  | nil => rfl
  | cons k ks ih =>
    simp only [List.cons_append, Processor.run, bind, Except.bind]
    cases hk : Processor.keypressed A fuel q k with
    | error f => rfl
    | ok v =>
      obtain ⟨q1, x⟩ := v
      cases x with
      | some e => rfl
      | none => exact ih q1

/-- What pressing the keys of lines has done when some of them have been pressed: some lines have been entered, and the beginning of another one typed. -/
theorem run_lineKeys (A : App σ τ) (fuel : Nat) (lines : List Str) (hl : ∀ l ∈ lines, Printable l) : ∀ (w : World σ τ) (keys : List Key) (q : Processor.Proc σ τ), keys <+: lineKeys lines →
    Processor.run A fuel keys ⟨w, ⟨[], 0⟩, true⟩ = .ok (q, none) →
    ∃ fed more w1 io, fed <+: lines ∧ keys = lineKeys fed ++ more ∧ Processor.run A fuel (lineKeys fed) ⟨w, ⟨[], 0⟩, true⟩ = .ok (⟨w1, ⟨[], 0⟩, true⟩, none) ∧ FedLines A fuel w fed w1 ∧ q.w = { w1 with io := io } ∧
      (more = [] → q.w = w1) ∧ (keys = lineKeys lines → fed = lines ∧ more = []) := by
  induction lines with
  | nil =>
    intro w keys q hk hr
    have : keys = [] := by simpa [lineKeys] using hk
    subst this
    cases hr
    exact ⟨[], [], w, w.io, List.prefix_refl _, rfl, rfl, .nil w, rfl, fun _ => rfl, fun _ => ⟨rfl, rfl⟩⟩
  | cons l lines ih =>
    intro w keys q hk hr
    have hkl : lineKeys (l :: lines) = (l.map Key.ascii ++ [.ret]) ++ lineKeys lines := by simp [lineKeys]
    rw [hkl] at hk
    by_cases hlen : keys.length ≤ l.length
    · -- the line has not been entered
      have hk' : keys <+: l.map Key.ascii := by
        have h1 : keys <+: l.map Key.ascii ++ ([.ret] ++ lineKeys lines) := by rw [← List.append_assoc]; exact hk
        exact List.prefix_of_prefix_length_le h1 (List.prefix_append _ _) (by simpa using hlen)
      have hq : ∀ k ∈ keys, Quiet k := by
        intro k hkm
        have := hk'.subset hkm
        obtain ⟨c, hc, rfl⟩ := List.mem_map.1 this
        have hp := hl l (by simp) c hc
        intro e
        subst e
        simp [printable] at hp
      obtain ⟨io, hrun⟩ := quiet_run A fuel keys [] ⟨w, ⟨[], 0⟩, true⟩ ⟨[], []⟩ hq ⟨rfl, rfl⟩
      rw [List.append_nil, hr] at hrun
      simp only [Processor.run] at hrun
      cases hrun
      refine ⟨[], keys, w, io, List.nil_prefix, rfl, rfl, .nil w, rfl, ?_, ?_⟩
      · intro hm
        subst hm
        injection hr with hr
        exact (congrArg (fun v => v.1.w) hr).symm
      · intro he
        rw [he, hkl] at hlen
        simp at hlen
        omega
    · -- it has
      have hpre : l.map Key.ascii ++ [.ret] <+: keys := List.prefix_of_prefix_length_le (List.prefix_append _ _) hk (by simp; omega)
      obtain ⟨more, rfl⟩ := hpre
      have hmore : more <+: lineKeys lines := by
        obtain ⟨t, ht⟩ := hk
        rw [List.append_assoc] at ht
        exact ⟨t, List.append_cancel_left ht⟩
      obtain ⟨io, h1⟩ := C42_typed_line A fuel w l (by
        intro hm
        have := hl l (by simp) _ hm
        simp [printable] at this)
      rw [proc_run_append, h1] at hr
      cases he : enterLine A fuel l { w with io := io } with
      | error f => rw [he] at hr; cases hr
      | ok v =>
        obtain ⟨q1, x⟩ := v
        rw [he] at hr h1
        cases x with
        | some e => cases hr
        | none =>
          have hq1 := enterLine_ready he
          simp only at hr
          rw [hq1] at hr
          obtain ⟨fed, more', w1, io', g1, g2, g3, g4, g5, g6, g7⟩ := ih (fun l h => hl l (by simp [h])) q1.w more q hmore hr
          refine ⟨l :: fed, more', w1, io', List.cons_prefix_cons.2 ⟨rfl, g1⟩, ?_, ?_, .cons he g4, g5, g6, ?_⟩
          · simp [lineKeys, g2]
          · rw [show lineKeys (l :: fed) = (l.map Key.ascii ++ [.ret]) ++ lineKeys fed by simp [lineKeys], proc_run_append, h1]
            simp only
            rw [hq1]; exact g3
          · intro he
            rw [hkl] at he
            obtain ⟨e1, e2⟩ := g7 (List.append_cancel_left he)
            exact ⟨by rw [e1], e2⟩

/-- **C90** When lines are typed, after the last of which the scheduler is stopped (such as `exit`), and then whatever else: once the scheduler has been left, some or all of these lines have been executed, in order, each once, the last
    one executed is the one that stopped the scheduler, and nothing else has been executed. -/
theorem C90_lines (A : App σ τ) (stopped : σ → Bool) (fuel : Nat) (p : Platform) (manual : α → α) (tty : α) (n : Nat) (w : World σ τ) (io : Io) (l : Local.St σ τ α) (s : Program.St σ τ α)
    (es : List (Program.Ev α)) (h0 : Local.create A manual tty n w io = .ok (l, none)) (hc : ∀ e ∈ es, Calm e) (h : Program.run A stopped fuel p manual es ⟨l, .run⟩ = .ok (some (s, none)))
    (lines : List Str) (hl : ∀ l ∈ lines, Printable l) (rest : Str) (ht : Program.typed es = lines.flatMap (fun l => l ++ bs!"\n") ++ rest)
    (hstop : ∀ w1, FedLines A fuel l.proc.w lines w1 → stopped w1.app = true) (hrun : s.phase ≠ .run) :
    ∃ fed, fed <+: lines ∧ FedLines A fuel l.proc.w fed s.loc.proc.w ∧ stopped s.loc.proc.w.app = true := by
  obtain ⟨keys, g1, g2, g3, g4⟩ := C90_nothing_after_exit A stopped fuel p manual tty n w io l s es h0 hc h
  have hq : l.proc = ⟨l.proc.w, ⟨[], 0⟩, true⟩ := by
    unfold Local.create at h0
    split at h0
    · cases h0
    · split at h0
      · cases h0
      · cases h0; rfl
  rw [ht, decode_lines p lines hl] at g1
  have hpre : keys <+: lineKeys lines := by
    by_cases hlen : keys.length ≤ (lineKeys lines).length
    · exact List.prefix_of_prefix_length_le g1 (List.prefix_append _ _) hlen
    · have hk : lineKeys lines <+: keys := List.prefix_of_prefix_length_le (List.prefix_append _ _) g1 (by omega)
      obtain ⟨more, hm⟩ := hk
      have hr := g2
      rw [← hm, proc_run_append] at hr
      cases hk : Processor.run A fuel (lineKeys lines) l.proc with
      | error f => rw [hk] at hr; cases hr
      | ok v =>
        obtain ⟨q1, x⟩ := v
        rw [hk] at hr
        cases x with
        | some e => cases hr
        | none =>
          rw [hq] at hk
          obtain ⟨fed, more', w1, io', e1, e2, e3, e4, e5, e6, e7⟩ := run_lineKeys A fuel lines hl l.proc.w (lineKeys lines) q1 (List.prefix_refl _) hk
          obtain ⟨rfl, rfl⟩ := e7 rfl
          have h1 := hstop w1 e4
          have h2 := g3 (lineKeys fed).length (by omega) ⟨w1, ⟨[], 0⟩, true⟩ none (by rw [← hm, List.take_left, hq]; exact e3)
          simp only at h2
          rw [h1] at h2; cases h2
  rw [hq] at g2
  obtain ⟨fed, more, w1, io', e1, e2, e3, e4, e5, e6, _⟩ := run_lineKeys A fuel lines hl l.proc.w keys _ hpre g2
  have hs := g4 hrun
  have hm : more = [] := by
    by_cases hm : more = []
    · exact hm
    · have hlt : (lineKeys fed).length < keys.length := by
        rw [e2, List.length_append]
        have : 0 < more.length := List.length_pos_iff.2 hm
        omega
      have := g3 _ hlt _ _ (by rw [e2, List.take_left, hq]; exact e3)
      rw [e5] at hs
      rw [show ({ w1 with io := io' } : World σ τ).app = w1.app from rfl] at hs
      simp only at this
      rw [this] at hs; cases hs
  exact ⟨fed, e1, by rw [e6 hm]; exact e4, hs⟩

/-! ### The end of the program -/

/-- Steps of the two threads. -/
def Moves (e : Program.Ev α) : Prop :=
  match e with
  | .kb e => Own e
  | _ => True

/-- Where the program can come to rest: it is over; or it waits for input, having handled everything typed; or the main thread waits for the reader thread, which waits for the rest of an escape sequence. -/
theorem program_rest (A : App σ τ) (stopped : σ → Bool) (fuel : Nat) (p : Platform) (manual : α → α) (q0 : Processor.Proc σ τ) (arr : Str) (s : Program.St σ τ α) (g : InTurn A stopped fuel p q0 arr s)
    (hq : ∀ e, Moves e → Program.step A stopped fuel p manual s e = .ok none) :
    s.phase = .over ∨ (s.phase = .run ∧ stopped s.loc.proc.w.app = false ∧ s.loc.handled = s.loc.kb.posted.length ∧ s.loc.kb.posted = (decode p .first arr).2) ∨
    (s.phase = .joining ∧ (decode p .first arr).1 ≠ .first) := by
  have hbusy : s.loc.busy = false := by
    cases hb : s.loc.busy with
    | false => rfl
    | true =>
      have hp : s.phase = .run := Classical.byContradiction fun hn => by rw [(g.after hn).2] at hb; cases hb
      have := hq .done trivial
      simp [Program.step, hp, Program.step.lift, Local.step, hb, Keyboard.step] at this
  have hen := g.typing.enabled rfl hbusy
  have hwait : s.loc.kb.reader ≠ .wait := by
    intro hr
    have := hq (.kb .check) trivial
    simp [Program.step, Program.step.lift, Local.step, Local.ownStep, Keyboard.step, hr, hen] at this
  have hpost : ∀ k, s.loc.kb.reader ≠ .post k := by
    intro k hr
    have := hq (.kb .post) trivial
    simp [Program.step, Program.step.lift, Local.step, Local.ownStep, Keyboard.step, hr] at this
  have hget : ∀ pc, s.loc.kb.reader = .get pc → s.loc.kb.input = [] := by
    intro pc hr
    cases hi : s.loc.kb.input with
    | nil => rfl
    | cons c rest =>
      have := hq (.kb .getc) trivial
      simp [Program.step, Program.step.lift, Local.step, Local.ownStep, Keyboard.step, hr, hi] at this
  have hsel : s.loc.kb.reader = .select → s.loc.kb.stopped = false ∧ s.loc.kb.input = [] := by
    intro hr
    have := hq (.kb .ready) trivial
    cases hs : s.loc.kb.stopped with
    | true => simp [Program.step, Program.step.lift, Local.step, Local.ownStep, Keyboard.step, hr, hs] at this
    | false =>
      cases hi : s.loc.kb.input with
      | nil => exact ⟨rfl, rfl⟩
      | cons c rest => simp [Program.step, Program.step.lift, Local.step, Local.ownStep, Keyboard.step, hr, hs, hi] at this
  obtain ⟨r, g1, g2⟩ := g.typing.read
  cases hp : s.phase with
  | over => exact .inl rfl
  | returned =>
    have := hq .destroy trivial
    simp [Program.step, hp, Keyboard.step] at this
  | joining =>
    refine .inr (.inr ⟨rfl, ?_⟩)
    have hst : s.loc.kb.stopped = true := g.flag.2 (.inl hp)
    cases hr : s.loc.kb.reader with
    | wait => exact absurd hr hwait
    | post k => exact absurd hr (hpost k)
    | select => rw [(hsel hr).1] at hst; cases hst
    | ended =>
      have := hq .join trivial
      simp [Program.step, hp, hr] at this
    | get pc =>
      have hi := hget pc hr
      have hf : pc ≠ .first := by
        rintro rfl
        exact g.avail hr hi
      unfold Decoded at g2
      rw [hr] at g2
      rw [g1, hi, List.append_nil, g2]
      exact hf
  | run =>
    refine .inr (.inl ⟨rfl, ?_, ?_⟩)
    · cases hs : stopped s.loc.proc.w.app with
      | false => rfl
      | true =>
        have := hq .ret trivial
        simp [Program.step, hp, hs, hbusy] at this
    · have hns : stopped s.loc.proc.w.app = false := by
        cases hs : stopped s.loc.proc.w.app with
        | false => rfl
        | true =>
          have := hq .ret trivial
          simp [Program.step, hp, hs, hbusy] at this
      have hall : s.loc.kb.posted.length ≤ s.loc.handled := by
        refine Nat.le_of_not_lt fun hlt => ?_
        have := hq .task trivial
        simp only [Program.step, hp, hns, and_self, if_true, Local.step, hbusy, Bool.false_eq_true, if_false, List.getElem?_eq_getElem hlt, g.typing.live] at this
        cases hk : Processor.keypressed A fuel s.loc.proc s.loc.kb.posted[s.loc.handled] with
        | error f => simp [Program.step.lift, hk] at this
        | ok v =>
          obtain ⟨q, x⟩ := v
          rw [hk] at this
          simp only at this
          split at this <;> simp [Program.step.lift] at this
      have hne : s.loc.kb.reader ≠ .ended := by
        intro hr
        have := g.flag.1 (g.ended hr)
        rw [hp] at this
        rcases this with h | h <;> cases h
      have hd : s.loc.kb.input = [] ∧ (decode p .first r).2 = s.loc.kb.posted := by
        unfold Decoded at g2
        cases hr : s.loc.kb.reader with
        | wait => exact absurd hr hwait
        | post k => exact absurd hr (hpost k)
        | ended => exact absurd hr hne
        | select => rw [hr] at g2; exact ⟨(hsel hr).2, by rw [g2]⟩
        | get pc => rw [hr] at g2; exact ⟨hget pc hr, by rw [g2]⟩
      exact ⟨Nat.le_antisymm g.typing.handled hall, by rw [g1, hd.1, List.append_nil, hd.2]⟩

/-- **C90** (partial) When lines have been typed after which the scheduler is stopped (such as `exit`), and then whatever else but not half an escape sequence, the program ends: as long as it is not over, one of its two threads
    can go on. Missing: half an escape sequence, see below. -/
theorem C90_ends_partial (A : App σ τ) (stopped : σ → Bool) (fuel : Nat) (p : Platform) (manual : α → α) (tty : α) (n : Nat) (w : World σ τ) (io : Io) (l : Local.St σ τ α) (s : Program.St σ τ α)
    (es : List (Program.Ev α)) (h0 : Local.create A manual tty n w io = .ok (l, none)) (hc : ∀ e ∈ es, Calm e) (h : Program.run A stopped fuel p manual es ⟨l, .run⟩ = .ok (some (s, none)))
    (lines : List Str) (hl : ∀ l ∈ lines, Printable l) (rest : Str) (ht : Program.typed es = lines.flatMap (fun l => l ++ bs!"\n") ++ rest)
    (hstop : ∀ w1, FedLines A fuel l.proc.w lines w1 → stopped w1.app = true) (hrest : (decode p .first rest).1 = .first) (ho : s.phase ≠ .over) :
    ∃ e, Moves e ∧ Program.step A stopped fuel p manual s e ≠ .ok none := by
  refine Classical.byContradiction fun hn => ?_
  have hq : ∀ e, Moves e → Program.step A stopped fuel p manual s e = .ok none := fun e he => Classical.byContradiction fun hne => hn ⟨e, he, hne⟩
  have g := inTurn_run es (inTurn_create (stopped := stopped) (fuel := fuel) (p := p) h0) hc h
  rw [List.nil_append] at g
  have hq0 : l.proc = ⟨l.proc.w, ⟨[], 0⟩, true⟩ := by
    unfold Local.create at h0
    split at h0
    · cases h0
    · split at h0
      · cases h0
      · cases h0; rfl
  rcases program_rest A stopped fuel p manual l.proc _ s g hq with h1 | ⟨h1, h2, h3, h4⟩ | ⟨h1, h2⟩
  · exact ho h1
  · rw [ht, decode_lines p lines hl] at h4
    have hproc := g.typing.proc
    rw [h3, List.take_length, h4, proc_run_append] at hproc
    cases hk : Processor.run A fuel (lineKeys lines) l.proc with
    | error f => rw [hk] at hproc; cases hproc
    | ok v =>
      obtain ⟨q1, x⟩ := v
      rw [hk] at hproc
      cases x with
      | some e => cases hproc
      | none =>
        have hk' := hk
        rw [hq0] at hk'
        obtain ⟨fed, more, w1, io', e1, e2, e3, e4, e5, e6, e7⟩ := run_lineKeys A fuel lines hl l.proc.w (lineKeys lines) q1 (List.prefix_refl _) hk'
        obtain ⟨rfl, rfl⟩ := e7 rfl
        have hs := hstop w1 e4
        rw [← e6 rfl] at hs
        by_cases hm : (decode p .first rest).2 = []
        · rw [hm] at hproc
          cases hproc
          rw [h2] at hs; cases hs
        · have hlt : (lineKeys fed).length < s.loc.handled := by
            rw [h3, h4, List.length_append]
            have := List.length_pos_iff.2 hm
            omega
          have := g.first _ hlt q1 none (by rw [h4, List.take_left]; exact hk)
          rw [this] at hs; cases hs
  · apply h2
    rw [ht]
    clear ht hstop
    induction lines with
    | nil => exact hrest
    | cons a lines ih =>
      have h1 : decode p .first (a ++ bs!"\n") = (.first, a.map Key.ascii ++ [.ret]) := by
        rw [decode_append, decode_printable p a (hl a (by simp))]
        have := sends_decode (p := p) Sends.ret
        rw [this]
      rw [List.flatMap_cons, List.append_assoc, decode_append, h1]
      exact ih (fun l h => hl l (by simp [h]))

/-- **C90** And this does not go on forever: if nothing more is typed, there is a bound for the number of steps of the two threads, in whatever order. -/
theorem C90_bounded (A : App σ τ) (stopped : σ → Bool) (fuel : Nat) (p : Platform) (manual : α → α) (tty : α) (n : Nat) (w : World σ τ) (io : Io) (l : Local.St σ τ α) (s s' : Program.St σ τ α)
    (es es' : List (Program.Ev α)) (h0 : Local.create A manual tty n w io = .ok (l, none)) (hc : ∀ e ∈ es, Calm e) (h : Program.run A stopped fuel p manual es ⟨l, .run⟩ = .ok (some (s, none)))
    (hm : ∀ e ∈ es', Moves e) (h' : Program.run A stopped fuel p manual es' s = .ok (some (s', none))) : es'.length ≤ 6 * s.loc.kb.input.length + 2 * s.loc.kb.posted.length + 9 := by
  have g := inTurn_run es (inTurn_create (stopped := stopped) (fuel := fuel) (p := p) h0) hc h
  let rank : Program.Phase → Nat := fun | .run => 3 | .returned => 2 | .joining => 1 | .over => 0
  have calm : ∀ e : Program.Ev α, Moves e → Calm e := by
    intro e he
    cases e with
    | kb e => cases e <;> trivial
    | _ => trivial
  have gen : ∀ (es : List (Program.Ev α)) (arr : Str) (s : Program.St σ τ α), InTurn A stopped fuel p l.proc arr s → (∀ e ∈ es, Moves e) → Program.run A stopped fuel p manual es s = .ok (some (s', none)) →
      es.length ≤ work s.loc + rank s.phase := by
    intro es
    induction es with
    | nil => intro arr s _ _ _; simp
    | cons e es ih =>
      intro arr s g hm hs
      simp only [Program.run] at hs
      split at hs
      · cases hs
      · cases hs
      · cases hs
      · rename_i s1 h1
        have h2 := ih _ s1 (inTurn_step g (calm e (hm e (by simp))) h1) (fun e he => hm e (by simp [he])) hs
        have h3 : work s1.loc + rank s1.phase + 1 ≤ work s.loc + rank s.phase := by
          have lifted : ∀ (le : Local.Ev α), Inner le → Program.step.lift s (Local.step A fuel p manual s.loc le) = .ok (some (s1, none)) → work s1.loc + rank s1.phase + 1 ≤ work s.loc + rank s.phase := by
            intro le hi hl
            unfold Program.step.lift at hl
            split at hl
            · cases hl
            · cases hl
            · rename_i l1 x hl1
              cases hl
              have := work_step g.typing hi hl1
              simp only
              omega
          cases e with
          | kb e => exact lifted (.kb e) (hm (.kb e) (List.mem_cons_self ..)) h1
          | task =>
            simp only [Program.step] at h1
            split at h1
            · exact lifted .task trivial h1
            · cases h1
          | done =>
            simp only [Program.step] at h1
            split at h1
            · exact lifted .done trivial h1
            · cases h1
          | ret =>
            simp only [Program.step] at h1
            split at h1
            · rename_i hcond; cases h1; simp [rank, hcond.1]
            · cases h1
          | destroy =>
            simp only [Program.step, Keyboard.step] at h1
            split at h1
            · rename_i hcond; cases h1; simp [rank, hcond, work]
            · cases h1
          | join =>
            simp only [Program.step] at h1
            split at h1
            · rename_i hcond; cases h1; simp [rank, hcond.1]
            · cases h1
        simp only [List.length_cons]
        omega
  have h1 := gen es' _ s g hm h'
  have hr : readerWork s.loc.kb.reader ≤ 5 := by cases s.loc.kb.reader <;> simp [readerWork]
  have hk : rank s.phase ≤ 3 := by cases s.phase <;> simp [rank]
  unfold work at h1
  split at h1 <;> omega

/-- The sample application with an exit action that stops the scheduler. -/
def haltApp : App (List Nat) (List Str) := { Sample.app with exitSession := some (fun s => ⟨99 :: s, [], none⟩) }

/-- The sample program when `Run` is called. -/
def program0 : Program.St (List Nat) (List Str) Bool := ⟨local0, .run⟩

/-- The steps that bring a key of one byte to the scheduler. -/
def struck (c : Byte) : List (Program.Ev Bool) := [.kb (.arrive c), .kb .check, .kb .ready, .kb .getc, .kb .post]

/-- What can be seen: the calls, how many keys have been handled, and where the main thread is. -/
def glance (r : Except Fault (Option (Program.St (List Nat) (List Str) Bool × Option Exn))) : Option ((List Nat × Nat) × Program.Phase) :=
  match r with
  | .ok (some (s, none)) => some ((s.loc.proc.w.app, s.loc.handled), s.phase)
  | _ => none

/-- `any`, `exit` and `any` are typed: the program ends after `exit`. -/
example : glance (Program.run haltApp (fun s => s.contains 99) 3 plat (fun _ => false) ((bs!"any\nexit\nany\n").flatMap struck ++
    List.replicate 4 .task ++ [.done] ++ List.replicate 5 .task ++ [.done, .ret, .destroy, .kb .check, .kb .ready, .join]) program0) = some (([99, 5], 9), .over) := by decide +kernel
example : Program.typed ((bs!"any\nexit\nany\n").flatMap struck) = bs!"any\nexit\nany\n" := by decide +kernel
example : ∃ l, Local.create haltApp (fun _ : Bool => false) true 9 Sample.world Sample.io = .ok (l, none) ∧ local0.kb.reader = l.kb.reader := ⟨_, rfl, rfl⟩
/-- The lines `any` and `exit` can be executed. -/
example : ∃ w1, FedLines haltApp 3 Sample.world [bs!"any", bs!"exit"] w1 ∧ w1.app = [99, 5] :=
  ⟨_, .cons (io := Sample.io) rfl (.cons (io := Sample.io) rfl (.nil _)), rfl⟩
/-- And `exit` stops the scheduler whatever has been written before. -/
example (w1 : World (List Nat) (List Str)) (h : FedLines haltApp 3 Sample.world [bs!"exit"] w1) : w1.app.contains 99 = true := by
  cases h with
  | @cons _ _ _ _ io q h hr =>
    cases hr
    have h1 : ∃ q, enterLine haltApp 3 bs!"exit" { Sample.world with io := io } = .ok (q, none) ∧ q.w.app = [99] := ⟨_, rfl, rfl⟩
    obtain ⟨q', h2, h3⟩ := h1
    rw [h2] at h
    cases h
    rw [h3]; rfl

/-- **C90 refuted** After `exit`, the first byte of an escape sequence is typed: the scheduler has stopped, and the destructor of the session waits for the reader thread, which is in `read` and waits for the next byte.
    Nothing is possible any more until another key is pressed. -/
theorem C90_hangs_refuted : ∃ (es : List (Program.Ev Bool)) (s : Program.St (List Nat) (List Str) Bool), (∀ e ∈ es, Calm e) ∧
    Program.run haltApp (fun s => s.contains 99) 3 plat (fun _ => false) es program0 = .ok (some (s, none)) ∧ Program.typed es = bs!"exit\n" ++ [27] ∧ s.loc.proc.w.app = [99] ∧ s.phase = .joining ∧
    ∀ e, Moves e → Program.step haltApp (fun s => s.contains 99) 3 plat (fun _ => false) s e = .ok none := by
  refine ⟨(bs!"exit\n").flatMap struck ++ [.kb (.arrive 27), .kb .check, .kb .ready, .kb .getc] ++ List.replicate 5 .task ++ [.done, .ret, .destroy], _, ?_, rfl, rfl, rfl, rfl, ?_⟩
  · simp [struck, Calm]
  · intro e he
    cases e with
    | kb e => cases e <;> first | rfl | exact absurd he (by simp [Moves, Own])
    | _ => rfl

end Verif.Props
