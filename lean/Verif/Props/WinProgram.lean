import Verif.Model.WinProgram
import Verif.Model.LocalSession
import Verif.Props.WinKeyboard
import Verif.Props.Program

set_option linter.unusedSimpArgs false

/-!
# C129: the program whose exit action stops its scheduler, on Windows
-/

namespace Verif.WinProgram
open Spec Props
open WinKeyboard (Kb Rec)
open Terminal (Key)

variable {σ τ : Type}

/-- The records that arrive. -/
def arrived : List Ev → List Rec
  | [] => []
  | .kb (.arrive r) :: es => r :: arrived es
  | _ :: es => arrived es

/-- What happens to the keyboard. -/
def toKb : Ev → List WinKeyboard.Ev
  | .kb e => [e]
  | .destroy => [.stop]
  | _ => []

theorem arrived_kb (es : List Ev) : winArrived (es.flatMap toKb) = arrived es := by
  induction es with
  | nil => rfl
  | cons e es ih =>
    cases e with
    | kb e =>
      cases e with
      | arrive r => simp only [List.flatMap_cons, toKb, List.cons_append, List.nil_append, winArrived, arrived, ih]
      | _ => simp only [List.flatMap_cons, toKb, List.cons_append, List.nil_append, winArrived, arrived, ih]
    | destroy => simp only [List.flatMap_cons, toKb, List.cons_append, List.nil_append, winArrived, arrived, ih]
    | _ => simp only [List.flatMap_cons, toKb, List.nil_append, arrived, ih]

/-- A proper state of the program. -/
structure Inv (A : App σ τ) (stopped : σ → Bool) (fuel : Nat) (q0 : Processor.Proc σ τ) (kes : List WinKeyboard.Ev) (s : St σ τ) : Prop where
  kb : WinKeyboard.steps WinKeyboard.init kes = some s.kb
  handled : s.handled ≤ s.kb.posted.length
  proc : Processor.run A fuel (s.kb.posted.take s.handled) q0 = .ok (s.proc, none)
  first : ∀ k, k < s.handled → ∀ q x, Processor.run A fuel (s.kb.posted.take k) q0 = .ok (q, x) → stopped q.w.app = false
  after : s.phase ≠ .run → stopped s.proc.w.app = true ∧ s.busy = false
  flag : s.kb.stopped = true ↔ s.phase = .joining ∨ s.phase = .over
  told : .stop ∈ kes → s.kb.stopped = true
  over : s.phase = .over → s.kb.reader = .ended

theorem steps_append (kes kes' : List WinKeyboard.Ev) : ∀ s : Kb, WinKeyboard.steps s (kes ++ kes') = (WinKeyboard.steps s kes).bind (WinKeyboard.steps · kes') := by
  induction kes with
  | nil => intro s; rfl
  | cons e kes ih =>
    intro s
    simp only [List.cons_append, WinKeyboard.steps]
    cases WinKeyboard.step s e with
    | none => rfl
    | some k => exact ih k

/-- What a step of the reader thread or of the console does not change. -/
theorem kb_mono {k k' : Kb} {e : WinKeyboard.Ev} (h : WinKeyboard.step k e = some k') : k.posted <+: k'.posted ∧ (e ≠ .stop → k'.stopped = k.stopped) ∧ (k.reader = .ended → k'.reader = .ended) := by
  obtain ⟨rd, cy, rs, st, po⟩ := k
  cases e with
  | wake =>
    simp only [WinKeyboard.step] at h
    split at h
    · split at h
      · cases h; exact ⟨List.prefix_refl _, fun _ => rfl, fun _ => rfl⟩
      · split at h <;> cases h
        exact ⟨List.prefix_refl _, fun _ => rfl, fun h => (by cases h)⟩
    · cases h
  | getch =>
    simp only [WinKeyboard.step] at h
    split at h
    · cases hg : WinKeyboard.getch cy rs with
      | none => rw [hg] at h; cases h
      | some v => rw [hg] at h; cases h; exact ⟨List.prefix_refl _, fun _ => rfl, fun h => (by cases h)⟩
    · cases hg : WinKeyboard.getch cy rs with
      | none => rw [hg] at h; cases h
      | some v => rw [hg] at h; cases h; exact ⟨List.prefix_refl _, fun _ => rfl, fun h => (by cases h)⟩
    · cases h
  | post =>
    simp only [WinKeyboard.step] at h
    split at h
    · cases h
      exact ⟨List.prefix_append _ _, fun _ => rfl, fun h => (by cases h)⟩
    · cases h
  | stop =>
    simp only [WinKeyboard.step] at h
    split at h <;> cases h
    exact ⟨List.prefix_refl _, fun h => absurd rfl h, fun h => h⟩
  | arrive r =>
    simp only [WinKeyboard.step] at h
    cases h
    exact ⟨List.prefix_refl _, fun _ => rfl, fun h => h⟩

theorem inv_step {A : App σ τ} {stopped : σ → Bool} {fuel : Nat} {q0 : Processor.Proc σ τ} {kes : List WinKeyboard.Ev} {s s' : St σ τ} (h : Inv A stopped fuel q0 kes s) {e : Ev}
    (hs : step A stopped fuel s e = .ok (some (s', none))) : Inv A stopped fuel q0 (kes ++ toKb e) s' := by
  cases e with
  | kb e =>
    simp only [step] at hs
    split at hs
    · cases hs
    rename_i hne
    split at hs
    · cases hs
    rename_i k hk
    cases hs
    obtain ⟨h1, h2, h3⟩ := kb_mono hk
    refine ⟨?_, Nat.le_trans h.handled h1.length_le, ?_, ?_, h.after, ?_, ?_, fun ho => h3 (h.over ho)⟩
    · rw [steps_append, h.kb]; simp [toKb, WinKeyboard.steps, hk]
    · rw [show ({ s with kb := k } : St σ τ).kb.posted.take s.handled = s.kb.posted.take s.handled from take_of_prefix h1 h.handled]; exact h.proc
    · intro j hj q x hq
      rw [show ({ s with kb := k } : St σ τ).kb.posted.take j = s.kb.posted.take j from take_of_prefix h1 (Nat.le_trans (Nat.le_of_lt hj) h.handled)] at hq
      exact h.first j hj q x hq
    · rw [show ({ s with kb := k } : St σ τ).kb.stopped = s.kb.stopped from h2 hne]; exact h.flag
    · intro hm
      rw [show ({ s with kb := k } : St σ τ).kb.stopped = s.kb.stopped from h2 hne]
      rcases List.mem_append.1 hm with hm | hm
      · exact h.told hm
      · simp only [toKb, List.mem_singleton] at hm
        exact absurd hm.symm hne
  | task =>
    simp only [step] at hs
    split at hs
    · rename_i hc
      split at hs
      · cases hs
      rename_i key hkey
      split at hs
      · cases hs
      rename_i q x hq
      cases hs
      have hlt : s.handled < s.kb.posted.length := by
        have := List.getElem?_eq_some_iff.1 hkey
        exact this.1
      refine ⟨by simpa [toKb] using h.kb, hlt, ?_, ?_, fun hne => absurd hc.1 hne, h.flag, fun hm => h.told (by simpa [toKb] using hm), h.over⟩
      · show Processor.run A fuel (s.kb.posted.take (s.handled + 1)) q0 = _
        rw [List.take_add_one, hkey, Option.toList_some, proc_run_append, h.proc]
        simp [Processor.run, hq, bind, Except.bind]
      · intro k hk q' x' hq'
        by_cases hk' : k = s.handled
        · subst hk'
          have hp := h.proc
          rw [show ({ s with proc := q, handled := s.handled + 1, busy := _ } : St σ τ).kb.posted = s.kb.posted from rfl] at hq'
          rw [hp] at hq'
          cases hq'
          exact hc.2.1
        · exact h.first k (by have : k < s.handled + 1 := hk; omega) q' x' hq'
    · cases hs
  | done =>
    simp only [step] at hs
    split at hs
    · rename_i hc
      cases hs
      exact ⟨by simpa [toKb] using h.kb, h.handled, h.proc, h.first, fun hne => absurd hc.1 hne, h.flag, fun hm => h.told (by simpa [toKb] using hm), h.over⟩
    · cases hs
  | ret =>
    simp only [step] at hs
    split at hs
    · rename_i hc
      cases hs
      refine ⟨by simpa [toKb] using h.kb, h.handled, h.proc, h.first, fun _ => ⟨hc.2.2, hc.2.1⟩, ?_, fun hm => h.told (by simpa [toKb] using hm), fun ho => (by cases ho)⟩
      rw [h.flag, hc.1]; simp
    · cases hs
  | destroy =>
    simp only [step] at hs
    split at hs
    · rename_i hc
      split at hs
      · cases hs
      rename_i k hk
      cases hs
      have hk' := hk
      simp only [WinKeyboard.step] at hk'
      split at hk' <;> cases hk'
      refine ⟨?_, h.handled, h.proc, h.first, fun _ => h.after (by rw [hc]; simp), by simp, fun _ => rfl, fun ho => (by cases ho)⟩
      rw [steps_append, h.kb]; simp [toKb, WinKeyboard.steps, hk]
    · cases hs
  | join =>
    simp only [step] at hs
    split at hs
    · rename_i hc
      cases hs
      refine ⟨by simpa [toKb] using h.kb, h.handled, h.proc, h.first, fun _ => h.after (by rw [hc.1]; simp), ?_, fun hm => h.told (by simpa [toKb] using hm), fun _ => hc.2⟩
      rw [h.flag, hc.1]; simp
    · cases hs

theorem inv_run {A : App σ τ} {stopped : σ → Bool} {fuel : Nat} {q0 : Processor.Proc σ τ} (es : List Ev) : ∀ {kes : List WinKeyboard.Ev} {s s' : St σ τ}, Inv A stopped fuel q0 kes s →
    run A stopped fuel es s = .ok (some (s', none)) → Inv A stopped fuel q0 (kes ++ es.flatMap toKb) s' := by
  induction es with
  | nil => intro kes s s' h hs; cases hs; simpa using h
  | cons e es ih =>
    intro kes s s' h hs
    simp only [run] at hs
    split at hs
    · cases hs
    · cases hs
    · cases hs
    · rename_i s1 h1
      have := ih (inv_step h h1) hs
      rw [List.flatMap_cons, ← List.append_assoc]; exact this

theorem inv_create {A : App σ τ} {stopped : σ → Bool} {fuel n : Nat} {w : World σ τ} {io : Io} {s : St σ τ} (h : create A n w io = .ok (s, none)) :
    Inv A stopped fuel s.proc [] s ∧ s.proc = ⟨s.proc.w, ⟨[], 0⟩, true⟩ := by
  unfold create at h
  split at h
  · cases h
  · split at h
    · cases h
    · cases h
      exact ⟨⟨rfl, Nat.le_refl _, rfl, fun k hk => absurd hk (Nat.not_lt_zero _), fun h => absurd rfl h, by simp [WinKeyboard.init], fun h => (by cases h), fun h => (by cases h)⟩, rfl⟩

/-! ### Keys -/

/-- **C129** (partial) In every interleaving of the main thread, the reader thread and what arrives at the console, the keys handled are the first ones of those pressed, in order, including those pressed while a command is being executed;
    only the last of them can have stopped the scheduler: nothing pressed after it is handled. If the scheduler has been left, the last one has stopped it. Missing: function keys and the character 224 (C82). -/
theorem C129_keys_partial (A : App σ τ) (stopped : σ → Bool) (fuel n : Nat) (w : World σ τ) (io : Io) (s0 s : St σ τ) (es : List Ev) (h0 : create A n w io = .ok (s0, none))
    (h : run A stopped fuel es s0 = .ok (some (s, none))) (ks : List Key) (ht : WinTyped ks (arrived es)) (hp : ∀ r ∈ arrived es, WinPlain r) :
    ∃ keys, keys <+: ks ∧ Processor.run A fuel keys s0.proc = .ok (s.proc, none) ∧
      (∀ k, k < keys.length → ∀ q x, Processor.run A fuel (keys.take k) s0.proc = .ok (q, x) → stopped q.w.app = false) ∧ (s.phase ≠ .run → stopped s.proc.w.app = true) := by
  have g := inv_run es (inv_create (stopped := stopped) (fuel := fuel) h0).1 h
  rw [List.nil_append] at g
  rw [← arrived_kb] at ht hp
  have hk := (C82_keys_partial _ _ g.kb ks ht hp).1
  refine ⟨_, (List.take_prefix _ _).trans hk, g.proc, ?_, fun hp => (g.after hp).1⟩
  intro k hk q x hq
  have hk' : k < s.handled := Nat.lt_of_lt_of_le hk (by simp; omega)
  rw [List.take_take, Nat.min_eq_left (Nat.le_of_lt hk')] at hq
  exact g.first k hk' q x hq

/-- **C129** (partial) When lines are typed, after the last of which the scheduler is stopped (such as `exit`), and then whatever else: once the scheduler has been left, some or all of these lines have been executed, in order, each once,
    the last one executed is the one that stopped the scheduler, and nothing else has been executed. Missing: as before. -/
theorem C129_lines_partial (A : App σ τ) (stopped : σ → Bool) (fuel n : Nat) (w : World σ τ) (io : Io) (s0 s : St σ τ) (es : List Ev) (h0 : create A n w io = .ok (s0, none))
    (h : run A stopped fuel es s0 = .ok (some (s, none))) (lines : List Str) (hl : ∀ l ∈ lines, Printable l) (rest : List Key)
    (ht : WinTyped (lines.flatMap (fun l => l.map Key.ascii ++ [.ret]) ++ rest) (arrived es)) (hp : ∀ r ∈ arrived es, WinPlain r)
    (hstop : ∀ w1, FedLines A fuel s0.proc.w lines w1 → stopped w1.app = true) (hrun : s.phase ≠ .run) :
    ∃ fed, fed <+: lines ∧ FedLines A fuel s0.proc.w fed s.proc.w ∧ stopped s.proc.w.app = true := by
  obtain ⟨keys, g1, g2, g3, g4⟩ := C129_keys_partial A stopped fuel n w io s0 s es h0 h _ ht hp
  have hq := (inv_create (stopped := stopped) (fuel := fuel) h0).2
  rw [show lines.flatMap (fun l => l.map Key.ascii ++ [.ret]) = lineKeys lines from rfl] at g1
  have hpre : keys <+: lineKeys lines := by
    by_cases hlen : keys.length ≤ (lineKeys lines).length
    · exact List.prefix_of_prefix_length_le g1 (List.prefix_append _ _) hlen
    · have hk : lineKeys lines <+: keys := List.prefix_of_prefix_length_le (List.prefix_append _ _) g1 (by omega)
      obtain ⟨more, hm⟩ := hk
      have hr := g2
      rw [← hm, proc_run_append] at hr
      cases hk : Processor.run A fuel (lineKeys lines) s0.proc with
      | error f => rw [hk] at hr; cases hr
      | ok v =>
        obtain ⟨q1, x⟩ := v
        rw [hk] at hr
        cases x with
        | some e => cases hr
        | none =>
          rw [hq] at hk
          obtain ⟨fed, more', w1, io', e1, e2, e3, e4, e5, e6, e7⟩ := run_lineKeys A fuel lines hl s0.proc.w (lineKeys lines) q1 (List.prefix_refl _) hk
          obtain ⟨rfl, rfl⟩ := e7 rfl
          have h1 := hstop w1 e4
          have h2 := g3 (lineKeys fed).length (by omega) ⟨w1, ⟨[], 0⟩, true⟩ none (by rw [← hm, List.take_left, hq]; exact e3)
          simp only at h2
          rw [h1] at h2; cases h2
  rw [hq] at g2
  obtain ⟨fed, more, w1, io', e1, e2, e3, e4, e5, e6, _⟩ := run_lineKeys A fuel lines hl s0.proc.w keys _ hpre g2
  have hs := g4 hrun
  have hm : more = [] := by
    by_cases hm : more = []
    · exact hm
    · have hlt : (lineKeys fed).length < keys.length := by
        rw [e2, List.length_append]
        have : 0 < more.length := List.length_pos_iff.2 hm
        omega
      have := g3 _ hlt _ _ (by rw [e2, List.take_left, hq]; exact e3)
      rw [e5] at hs
      rw [show ({ w1 with io := io' } : World σ τ).app = w1.app from rfl] at hs
      simp only at this
      rw [this] at hs; cases hs
  exact ⟨fed, e1, by rw [e6 hm]; exact e4, hs⟩

/-! ### Progress -/

/-- Steps of the two threads. -/
def Moves : Ev → Prop
  | .kb e => WinOwn e
  | _ => True

/-- **C129** (partial) Where the program can come to rest, when neither thread can go on: it is over; or it waits for input, the scheduler is not stopped, and all keys pressed have been handled; or the main thread waits in the destructor of
    the session for the reader thread, which waits in `_getch` for a key. Missing: the last case (`C129_hangs_refuted`), and function keys and the character 224. -/
theorem C129_rest_partial (A : App σ τ) (stopped : σ → Bool) (fuel n : Nat) (w : World σ τ) (io : Io) (s0 s : St σ τ) (es : List Ev) (h0 : create A n w io = .ok (s0, none))
    (h : run A stopped fuel es s0 = .ok (some (s, none))) (ks : List Key) (ht : WinTyped ks (arrived es)) (hp : ∀ r ∈ arrived es, WinPlain r)
    (hq : ∀ e, Moves e → step A stopped fuel s e = .ok none) :
    s.phase = .over ∨ (s.phase = .run ∧ stopped s.proc.w.app = false ∧ Processor.run A fuel ks s0.proc = .ok (s.proc, none)) ∨
    (s.phase = .joining ∧ s.kb.reader = .first ∧ s.kb.carry = none ∧ ∀ r ∈ s.kb.records, r = .other) := by
  have g := inv_run es (inv_create (stopped := stopped) (fuel := fuel) h0).1 h
  rw [List.nil_append] at g
  rw [← arrived_kb] at ht hp
  obtain ⟨hk, hg⟩ := winTyped_good ht hp
  obtain ⟨hi, he⟩ := winInv_steps _ winInv_init hg g.kb
  have he' : s.kb.posted ++ winFlight s.kb ++ s.kb.records.filterMap winKey = ks := by rw [he, hk]; simp [WinKeyboard.init, winFlight]
  have kbq : ∀ e, WinOwn e → WinKeyboard.step s.kb e = none := by
    intro e hw
    have := hq (.kb e) hw
    have hne : e ≠ .stop := by rcases hw with rfl | rfl | rfl <;> simp
    simp only [step, hne, if_false] at this
    split at this
    · assumption
    · cases this
  have hbusy : s.busy = false := by
    cases hb : s.busy with
    | false => rfl
    | true =>
      have hp : s.phase = .run := Classical.byContradiction fun hn => by rw [(g.after hn).2] at hb; cases hb
      have := hq .done trivial
      simp [step, hp, hb] at this
  have others : ∀ rs : List Rec, WinKeyboard.getch none rs = none → ∀ r ∈ rs, r = .other := by
    intro rs
    induction rs with
    | nil => intro _ r hr; cases hr
    | cons a rs ih =>
      intro hn r hr
      cases a with
      | press a b => cases hn
      | other =>
        rcases List.mem_cons.1 hr with rfl | hr
        · rfl
        · exact ih hn r hr
  have noKeys : ∀ rs : List Rec, (∀ r ∈ rs, r = .other) → rs.filterMap winKey = [] := by
    intro rs hrs
    rw [List.filterMap_eq_nil_iff]
    intro r hr
    rw [hrs r hr]; rfl
  -- the reader thread
  have hreader : s.kb.reader = .ended ∨ (s.kb.reader = .wait ∧ s.kb.stopped = false ∧ s.kb.records = []) ∨ (s.kb.reader = .first ∧ s.kb.carry = none ∧ ∀ r ∈ s.kb.records, r = .other) := by
    cases hr : s.kb.reader with
    | ended => exact .inl rfl
    | wait =>
      have := kbq .wake (.inl rfl)
      simp only [WinKeyboard.step, hr] at this
      cases hs : s.kb.stopped with
      | true => rw [hs] at this; simp at this
      | false => rw [hs] at this; simp at this; exact .inr (.inl ⟨rfl, rfl, this⟩)
    | first =>
      have := kbq .getch (.inr (.inl rfl))
      simp only [WinKeyboard.step, hr, Option.map_eq_none_iff] at this
      have hc : s.kb.carry = none := by
        cases hc : s.kb.carry with
        | none => rfl
        | some c => have := hi.carry.2 (by rw [hc]; rfl); rw [hr] at this; cases this
      rw [hc] at this
      exact .inr (.inr ⟨rfl, hc, others _ this⟩)
    | symbol =>
      have := kbq .getch (.inr (.inl rfl))
      simp only [WinKeyboard.step, hr, Option.map_eq_none_iff] at this
      have hc := hi.carry.1 hr
      cases hc' : s.kb.carry with
      | none => rw [hc'] at hc; cases hc
      | some c => rw [hc'] at this; simp [WinKeyboard.getch] at this
    | post k =>
      have := kbq .post (.inr (.inr rfl))
      simp only [WinKeyboard.step, hr] at this
      cases this
  have hend : s.kb.reader = .ended → s.kb.stopped = true := by
    intro hr
    by_cases hm : WinKeyboard.Ev.stop ∈ es.flatMap toKb
    · exact g.told hm
    · exact absurd hr (win_ended _ _ _ rfl (by simp [WinKeyboard.init]) hm g.kb).2
  cases hph : s.phase with
  | over => exact .inl rfl
  | returned =>
    have hns : s.kb.stopped = false := by
      cases hs : s.kb.stopped with
      | false => rfl
      | true => have := g.flag.1 hs; rw [hph] at this; simp at this
    have := hq .destroy trivial
    simp [step, hph, WinKeyboard.step, hns] at this
  | joining =>
    have hs : s.kb.stopped = true := g.flag.2 (.inl hph)
    rcases hreader with hr | ⟨_, hr, _⟩ | hr
    · have := hq .join trivial
      simp [step, hph, hr] at this
    · rw [hs] at hr; cases hr
    · exact .inr (.inr ⟨rfl, hr⟩)
  | run =>
    have hns : s.kb.stopped = false := by
      cases hs : s.kb.stopped with
      | false => rfl
      | true => have := g.flag.1 hs; rw [hph] at this; simp at this
    have hst : stopped s.proc.w.app = false := by
      cases hs : stopped s.proc.w.app with
      | false => rfl
      | true =>
        have := hq .ret trivial
        simp [step, hph, hbusy, hs] at this
    have hall : s.kb.posted[s.handled]? = none := by
      have := hq .task trivial
      simp only [step, hph, hst, hbusy, and_self, if_true] at this
      split at this
      · assumption
      · split at this <;> cases this
    have hlen : s.handled = s.kb.posted.length := Nat.le_antisymm g.handled (by simpa using hall)
    have hpost : s.kb.posted = ks := by
      rcases hreader with hr | ⟨hr, _, hr2⟩ | ⟨hr, _, hr2⟩
      · rw [hend hr] at hns; cases hns
      · rw [← he', hr2]; simp [winFlight, hr]
      · rw [← he', noKeys _ hr2]; simp [winFlight, hr]
    refine .inr (.inl ⟨rfl, hst, ?_⟩)
    have := g.proc
    rw [hlen, List.take_length, hpost] at this
    exact this

/-- **C129** And this does not go on forever: if nothing more arrives, there is a bound for the number of steps of the two threads, in whatever order. -/
theorem C129_bounded (A : App σ τ) (stopped : σ → Bool) (fuel n : Nat) (w : World σ τ) (io : Io) (s0 s s' : St σ τ) (es es' : List Ev) (h0 : create A n w io = .ok (s0, none))
    (h : run A stopped fuel es s0 = .ok (some (s, none))) (ks : List Key) (ht : WinTyped ks (arrived es)) (hp : ∀ r ∈ arrived es, WinPlain r)
    (hm : ∀ e ∈ es', Moves e) (h' : run A stopped fuel es' s = .ok (some (s', none))) : es'.length ≤ 12 * s.kb.records.length + 2 * s.kb.posted.length + 13 := by
  have g := inv_run es (inv_create (stopped := stopped) (fuel := fuel) h0).1 h
  rw [List.nil_append] at g
  rw [← arrived_kb] at ht hp
  let rank : Program.Phase → Nat := fun | .run => 3 | .returned => 2 | .joining => 1 | .over => 0
  let work : St σ τ → Nat := fun s => 3 * winMeasure s.kb + 2 * (s.kb.posted.length - s.handled) + (if s.busy then 1 else 0) + rank s.phase
  have gen : ∀ (es' : List Ev) (kes : List WinKeyboard.Ev) (s : St σ τ), Inv A stopped fuel s0.proc kes s → (∀ e ∈ es', Moves e) → WinTyped ks (winArrived kes) → (∀ r ∈ winArrived kes, WinPlain r) →
      run A stopped fuel es' s = .ok (some (s', none)) → es'.length ≤ work s := by
    intro es'
    induction es' with
    | nil => intro kes s _ _ _ _ _; simp
    | cons e es' ih =>
      intro kes s g hm ht hp hs
      simp only [run] at hs
      split at hs
      · cases hs
      · cases hs
      · cases hs
      · rename_i s1 h1
        have g1 := inv_step g h1
        have harr : winArrived (kes ++ toKb e) = winArrived kes := by
          have e1 : ∀ a b, winArrived (a ++ b) = winArrived a ++ winArrived b := by
            intro a b
            induction a with
            | nil => rfl
            | cons x a iha => cases x <;> simp [winArrived, iha]
          rw [e1]
          have hme := hm e (by simp)
          cases e with
          | kb e => rcases hme with rfl | rfl | rfl <;> simp [toKb, winArrived]
          | _ => simp [toKb, winArrived]
        have hlen := ih _ s1 g1 (fun e he => hm e (by simp [he])) (by rw [harr]; exact ht) (by rw [harr]; exact hp) hs
        suffices hw : work s1 + 1 ≤ work s by simp only [List.length_cons]; omega
        cases e with
        | kb e =>
          have hme : WinOwn e := hm (.kb e) (by simp)
          simp only [step] at h1
          split at h1
          · cases h1
          split at h1
          · cases h1
          rename_i k hk
          cases h1
          have hd := (C82_progress kes s.kb g.kb ks ht hp).2.2 [e] k (by simpa using hme) (by simp [WinKeyboard.steps, hk])
          simp only [List.length_singleton] at hd
          have hpl : k.posted.length ≤ s.kb.posted.length + 1 := by
            rcases hme with rfl | rfl | rfl
            · simp only [WinKeyboard.step] at hk
              split at hk
              · split at hk
                · cases hk; simp
                · split at hk <;> cases hk
                  simp
              · cases hk
            · simp only [WinKeyboard.step] at hk
              split at hk
              · cases hg : WinKeyboard.getch s.kb.carry s.kb.records with
                | none => rw [hg] at hk; cases hk
                | some v => rw [hg] at hk; cases hk; simp
              · cases hg : WinKeyboard.getch s.kb.carry s.kb.records with
                | none => rw [hg] at hk; cases hk
                | some v => rw [hg] at hk; cases hk; simp
              · cases hk
            · simp only [WinKeyboard.step] at hk
              split at hk <;> cases hk
              simp
          have := g.handled
          simp only [work]
          omega
        | task =>
          simp only [step] at h1
          split at h1
          · rename_i hc
            split at h1
            · cases h1
            rename_i key hkey
            split at h1
            · cases h1
            cases h1
            have hlt := (List.getElem?_eq_some_iff.1 hkey).1
            simp only [work, hc.2.2, Bool.false_eq_true, if_false]
            split <;> omega
          · cases h1
        | done =>
          simp only [step] at h1
          split at h1
          · rename_i hc
            cases h1
            simp only [work, hc.2, Bool.false_eq_true, if_false, if_true]
            omega
          · cases h1
        | ret =>
          simp only [step] at h1
          split at h1
          · rename_i hc
            cases h1
            simp only [work, hc.1, rank]
            omega
          · cases h1
        | destroy =>
          simp only [step] at h1
          split at h1
          · rename_i hc
            split at h1
            · cases h1
            rename_i k hk
            cases h1
            simp only [WinKeyboard.step] at hk
            split at hk <;> cases hk
            simp only [work, hc, rank, winMeasure]
            omega
          · cases h1
        | join =>
          simp only [step] at h1
          split at h1
          · rename_i hc
            cases h1
            simp only [work, hc.1, rank]
            omega
          · cases h1
  have := gen es' _ s g hm ht hp h'
  have hb : winMeasure s.kb ≤ 4 * s.kb.records.length + 3 := by
    unfold winMeasure
    split <;> omega
  have hr : rank s.phase ≤ 3 := by cases s.phase <;> simp [rank]
  have hbz : (if s.busy then 1 else 0) + 0 ≤ 1 := by split <;> omega
  simp only [work] at this
  omega

/-! ### The end of the program -/

/-- No key is pressed. -/
def Idle (e : Ev) : Prop := ∀ a b, e ≠ .kb (.arrive (.press a b))

/-- The main thread waits for the reader thread, and that for a key. -/
def Stuck (s : St σ τ) : Prop := s.phase = .joining ∧ s.kb.reader = .first ∧ s.kb.carry = none ∧ ∀ r ∈ s.kb.records, r = .other

theorem getch_others : ∀ rs : List Rec, (∀ r ∈ rs, r = .other) → WinKeyboard.getch none rs = none
  | [], _ => rfl
  | .press a b :: rs, h => by cases h (.press a b) (by simp)
  | .other :: rs, h => getch_others rs (fun r hr => h r (by simp [hr]))

theorem stuck_step {A : App σ τ} {stopped : σ → Bool} {fuel : Nat} {s s' : St σ τ} {x : Option Exn} {e : Ev} (h : Stuck s) (he : Idle e) (hs : step A stopped fuel s e = .ok (some (s', x))) : Stuck s' ∧ s'.proc = s.proc := by
  obtain ⟨h1, h2, h3, h4⟩ := h
  cases e with
  | kb e =>
    simp only [step] at hs
    split at hs
    · cases hs
    rename_i hne
    split at hs
    · cases hs
    rename_i k hk
    cases hs
    cases e with
    | wake => simp [WinKeyboard.step, h2] at hk
    | getch => simp [WinKeyboard.step, h2, h3, getch_others _ h4] at hk
    | post => simp [WinKeyboard.step, h2] at hk
    | stop => exact absurd rfl hne
    | arrive r =>
      simp only [WinKeyboard.step] at hk
      cases hk
      refine ⟨⟨h1, h2, h3, ?_⟩, rfl⟩
      intro r' hr'
      rcases List.mem_append.1 hr' with hr' | hr'
      · exact h4 r' hr'
      · simp only [List.mem_singleton] at hr'
        subst hr'
        cases r' with
        | other => rfl
        | press a b => exact absurd rfl (he a b)
  | task => simp [step, h1] at hs
  | done => simp [step, h1] at hs
  | ret => simp [step, h1] at hs
  | destroy => simp [step, h1] at hs
  | join => simp [step, h1, h2] at hs

theorem stuck_run {A : App σ τ} {stopped : σ → Bool} {fuel : Nat} (es : List Ev) : ∀ {s s' : St σ τ} {x : Option Exn}, Stuck s → (∀ e ∈ es, Idle e) → run A stopped fuel es s = .ok (some (s', x)) → Stuck s' ∧ s'.proc = s.proc := by
  induction es with
  | nil => intro s s' x h _ hs; cases hs; exact ⟨h, rfl⟩
  | cons e es ih =>
    intro s s' x h he hs
    simp only [run] at hs
    split at hs
    · cases hs
    · cases hs
    · rename_i s1 x1 h1
      cases hs
      exact stuck_step h (he e (by simp)) h1
    · rename_i s1 h1
      obtain ⟨g1, g2⟩ := stuck_step h (he e (by simp)) h1
      obtain ⟨k1, k2⟩ := ih g1 (fun e h => he e (by simp [h])) hs
      exact ⟨k1, k2.trans g2⟩

/-- **C129** (refuted, in general) The program need not end with `exit`: if, after the command that has stopped the scheduler, the console gets a record that is no key press (the release of the key Enter is one) before the session is
    destroyed, the reader thread goes into `_getch`, and the program does not end, whatever else happens, until another key is pressed. -/
theorem C129_hangs_refuted (A : App σ τ) (stopped : σ → Bool) (fuel : Nat) (s : St σ τ) (h1 : s.phase = .run) (h2 : s.busy = false) (h3 : stopped s.proc.w.app = true) (h4 : s.kb.reader = .wait) (h5 : s.kb.records = [])
    (h6 : s.kb.carry = none) (h7 : s.kb.stopped = false) :
    ∃ s1, run A stopped fuel [.kb (.arrive .other), .kb .wake, .ret, .destroy] s = .ok (some (s1, none)) ∧ s1.phase = .joining ∧
      ∀ es, (∀ e ∈ es, Idle e) → ∀ s2 x, run A stopped fuel es s1 = .ok (some (s2, x)) → s2.phase = .joining := by
  refine ⟨{ s with kb := { s.kb with reader := .first, records := [.other], stopped := true }, phase := .joining }, ?_, rfl, ?_⟩
  · simp [run, step, WinKeyboard.step, h1, h2, h3, h4, h5, h7]
  · intro es he s2 x hs
    refine (stuck_run es ?_ he hs).1.1
    exact ⟨rfl, rfl, h6, by simp⟩

/-- **C129** (partial) Any key (but a function key or the character 224) lets the program end; it is not handled. -/
theorem C129_another_key_partial (A : App σ τ) (stopped : σ → Bool) (fuel : Nat) (s : St σ τ) (h : Stuck s) (hs : s.kb.stopped = true) (k : Key) (r : Rec) (hr : WinSends k r) (hp : WinPlain r) :
    ∃ es s', (∀ e ∈ es, Moves e) ∧ run A stopped fuel (.kb (.arrive r) :: es) s = .ok (some (s', none)) ∧ s'.phase = .over ∧ s'.proc = s.proc := by
  obtain ⟨h1, h2, h3, h4⟩ := h
  have got : ∀ (rs : List Rec) a b, (∀ r ∈ rs, r = .other) → WinKeyboard.getch none (rs ++ [.press a b]) = some (a, b, []) := by
    intro rs a b
    induction rs with
    | nil => intro _; rfl
    | cons x rs ih =>
      intro hx
      rw [show x = .other from hx x (by simp)]
      exact ih (fun r hr => hx r (by simp [hr]))
  have one : ∀ c k, r = .press c none → WinKeyboard.decodeFirst c = .post k → ∃ es s', (∀ e ∈ es, Moves e) ∧ run A stopped fuel (.kb (.arrive r) :: es) s = .ok (some (s', none)) ∧ s'.phase = .over ∧ s'.proc = s.proc := by
    rintro c k rfl hd
    refine ⟨[.kb .getch, .kb .post, .kb .wake, .join], { s with kb := { s.kb with reader := .ended, carry := none, records := [], posted := s.kb.posted ++ [k] }, phase := .over }, by simp [Moves, WinOwn], ?_, rfl, rfl⟩
    simp [run, step, WinKeyboard.step, h1, h2, h3, hs, got _ _ _ h4, hd]
  have two : ∀ d, r = .press 224 (some d) → ∃ es s', (∀ e ∈ es, Moves e) ∧ run A stopped fuel (.kb (.arrive r) :: es) s = .ok (some (s', none)) ∧ s'.phase = .over ∧ s'.proc = s.proc := by
    rintro d rfl
    refine ⟨[.kb .getch, .kb .getch, .kb .post, .kb .wake, .join], { s with kb := { s.kb with reader := .ended, carry := none, records := [], posted := s.kb.posted ++ [WinKeyboard.decodeSymbol d] }, phase := .over }, by simp [Moves, WinOwn], ?_, rfl, rfl⟩
    have hd : WinKeyboard.decodeFirst 224 = .symbol := by decide
    simp [run, step, WinKeyboard.step, h1, h2, h3, hs, got _ _ _ h4, hd, WinKeyboard.getch]
  obtain ⟨_, hg⟩ := winTyped_good (WinTyped.key hr .nil) (by simpa using hp)
  rcases hg r (by simp) with rfl | ⟨c, hc⟩ | ⟨c, k', hc, hd⟩
  · cases hr
  · exact two c hc
  · exact one c k' hc hd

/-- **C129** (refuted) While a command is being executed, the library does take characters from the console (C45 is about Linux): whatever character is typed is gone, and will be handled as a key when the command has ended. -/
theorem C129_taken_refuted (A : App σ τ) (stopped : σ → Bool) (fuel : Nat) (s : St σ τ) (h1 : s.busy = true) (h2 : s.kb.reader = .wait) (h3 : s.kb.records = []) (h4 : s.kb.carry = none) (h5 : s.kb.stopped = false)
    (c : Byte) (hc : c ∉ ([3, 4, 8, 12, 13, 26, 224] : Str)) :
    ∃ s', run A stopped fuel [.kb (.arrive (.press c none)), .kb .wake, .kb .getch, .kb .post] s = .ok (some (s', none)) ∧ s'.busy = true ∧ s'.kb.records = [] ∧ s'.kb.posted = s.kb.posted ++ [.ascii c] := by
  have hd : WinKeyboard.decodeFirst c = .post (.ascii c) := by
    simp only [List.mem_cons, List.not_mem_nil, or_false, not_or] at hc
    simp [WinKeyboard.decodeFirst, hc]
  refine ⟨{ s with kb := { s.kb with reader := .wait, carry := none, records := [], posted := s.kb.posted ++ [.ascii c] } }, ?_, h1, rfl, rfl⟩
  simp [run, step, WinKeyboard.step, h1, h2, h3, h4, h5, hd, WinKeyboard.getch]

/-- **C129** The session begins as on the other systems (`Model/LocalSession`), and the main thread waits for keys. -/
theorem C129_begins {α : Type} (A : App σ τ) (manual : α → α) (tty : α) (n : Nat) (w : World σ τ) (io : Io) :
    match Local.create A manual tty n w io, create A n w io with
    | .error f, .error f' => f = f'
    | .ok (l, x), .ok (s, x') => x = x' ∧ l.proc = s.proc ∧ s.kb = WinKeyboard.init ∧ s.handled = 0 ∧ s.busy = false ∧ s.phase = .run
    | _, _ => False := by
  unfold Local.create create
  cases enterSession { A with enterSession := none } (newSession A n w io) with
  | mk w1 x =>
    cases x with
    | some e => exact ⟨rfl, rfl, rfl, rfl, rfl, rfl⟩
    | none =>
      dsimp only
      cases prompt w1 with
      | error f => rfl
      | ok w2 => exact ⟨rfl, rfl, rfl, rfl, rfl, rfl⟩

/-- The key that is being executed is Enter. -/
def OnLine (s : St σ τ) : Prop := s.busy = true → 0 < s.handled ∧ s.kb.posted[s.handled - 1]? = some .ret

theorem onLine_step {A : App σ τ} {stopped : σ → Bool} {fuel : Nat} {s s' : St σ τ} (h : OnLine s) {e : Ev} (hs : step A stopped fuel s e = .ok (some (s', none))) : OnLine s' := by
  cases e with
  | kb e =>
    simp only [step] at hs
    split at hs
    · cases hs
    split at hs
    · cases hs
    rename_i k hk
    cases hs
    intro hb
    obtain ⟨h1, h2⟩ := h hb
    obtain ⟨t, ht⟩ := (kb_mono hk).1
    refine ⟨h1, ?_⟩
    show k.posted[s.handled - 1]? = _
    rw [← ht, List.getElem?_append_left (List.getElem?_eq_some_iff.1 h2).1]
    exact h2
  | task =>
    simp only [step] at hs
    split at hs
    · split at hs
      · cases hs
      rename_i key hkey
      split at hs
      · cases hs
      cases hs
      intro hb
      simp only [Option.isNone_none, Bool.and_true, decide_eq_true_eq] at hb
      subst hb
      exact ⟨Nat.succ_pos _, hkey⟩
    · cases hs
  | destroy =>
    simp only [step] at hs
    split at hs
    · split at hs
      · cases hs
      rename_i k hk
      cases hs
      intro hb
      obtain ⟨h1, h2⟩ := h hb
      obtain ⟨t, ht⟩ := (kb_mono hk).1
      refine ⟨h1, ?_⟩
      show k.posted[s.handled - 1]? = _
      rw [← ht, List.getElem?_append_left (List.getElem?_eq_some_iff.1 h2).1]
      exact h2
    · cases hs
  | _ =>
    simp only [step] at hs
    split at hs
    · cases hs; first | exact h | (intro hb; cases hb)
    · cases hs

/-- **C129** The main thread is executing a command only if the last key it took is Enter; and whenever it takes Enter, and no exception is thrown, it is. -/
theorem C129_busy (A : App σ τ) (stopped : σ → Bool) (fuel n : Nat) (w : World σ τ) (io : Io) (s0 s : St σ τ) (es : List Ev) (h0 : create A n w io = .ok (s0, none))
    (h : run A stopped fuel es s0 = .ok (some (s, none))) :
    (s.busy = true → 0 < s.handled ∧ s.kb.posted[s.handled - 1]? = some .ret) ∧
    (∀ s1 x, step A stopped fuel s .task = .ok (some (s1, x)) → s.busy = false ∧ s1.handled = s.handled + 1 ∧ (s1.busy = true ↔ s.kb.posted[s.handled]? = some .ret ∧ x = none)) := by
  constructor
  · have gen : ∀ (es : List Ev) (s1 : St σ τ), OnLine s1 → run A stopped fuel es s1 = .ok (some (s, none)) → OnLine s := by
      intro es
      induction es with
      | nil => intro s1 h1 h2; cases h2; exact h1
      | cons e es ih =>
        intro s1 h1 h2
        simp only [run] at h2
        split at h2
        · cases h2
        · cases h2
        · cases h2
        · rename_i s2 hs2
          exact ih s2 (onLine_step h1 hs2) h2
    refine gen es s0 ?_ h
    intro hb
    have := (C129_begins A (fun u : Unit => u) () n w io)
    rw [h0] at this
    revert this
    split
    · intro h; rename_i hh; cases hh
    · rename_i hh; cases hh; rintro ⟨_, _, _, _, h5, _⟩; rw [h5] at hb; cases hb
    · intro h; exact h.elim
  · intro s1 x hs
    simp only [step] at hs
    split at hs
    · rename_i hc
      split at hs
      · cases hs
      rename_i key hkey
      split at hs
      · cases hs
      cases hs
      refine ⟨hc.2.2, rfl, ?_⟩
      rw [hkey]
      simp
    · cases hs

/-! ### The sample program -/

/-- The steps that bring a key to the scheduler, and its release to the console. -/
def pressed (c : Byte) : List Ev := [.kb (.arrive (.press c none)), .kb .wake, .kb .getch, .kb .post]

def enter : List Ev := pressed 13

/-- The sample program when `Run` is called. -/
def start : Option (St (List Nat) (List Str)) :=
  match create haltApp 9 Sample.world Sample.io with
  | .ok (s, none) => some s
  | _ => none

/-- What can be seen: the calls, how many keys have been handled, where the main thread is, and what is left in the console. -/
def glance (es : List Ev) : Option (List Nat × Nat × Program.Phase × List Rec) :=
  match start with
  | none => none
  | some s =>
    match run haltApp (fun s => s.contains 99) 3 es s with
    | .ok (some (s, none)) => some (s.proc.w.app, s.handled, s.phase, s.kb.records)
    | _ => none

/-- The keys of `exit` are pressed, each is released, and the command is executed; the release of Enter comes late. -/
def leave : List Ev := (bs!"exit").flatMap (fun c => pressed c ++ [.kb (.arrive .other)]) ++ enter ++ List.replicate 5 .task ++ [.done]

/-- **C129** (refuted) `exit` is typed and executed, then the key Enter is released: the program hangs. -/
theorem C129_exit_refuted : ∃ s0 s : St (List Nat) (List Str), create haltApp 9 Sample.world Sample.io = .ok (s0, none) ∧ run haltApp (fun s => s.contains 99) 3 (leave ++ [.kb (.arrive .other), .kb .wake, .ret, .destroy]) s0 = .ok (some (s, none)) ∧
    WinTyped ((bs!"exit").map Key.ascii ++ [.ret]) (arrived (leave ++ [.kb (.arrive .other), .kb .wake, .ret, .destroy])) ∧ s.proc.w.app = [99] ∧ s.phase = .joining ∧
    ∀ es, (∀ e ∈ es, Idle e) → ∀ s2 x, run haltApp (fun s => s.contains 99) 3 es s = .ok (some (s2, x)) → s2.phase = .joining := by
  refine ⟨_, _, rfl, rfl, ?_, rfl, rfl, fun es he s2 x hs => ?_⟩
  · exact .key (.ascii (by decide)) (.other (.key (.ascii (by decide)) (.other (.key (.ascii (by decide)) (.other (.key (.ascii (by decide)) (.other (.key .ret (.other .nil)))))))))
  · refine (stuck_run es ?_ he hs).1.1
    exact ⟨rfl, rfl, rfl, by simp [leave, pressed, enter, WinKeyboard.step]⟩

/-- If the reader thread does not notice the release before `Stop` is called, the program ends. -/
example : glance (leave ++ [.ret, .destroy, .kb (.arrive .other), .kb .wake, .join]) = some ([99], 5, .over, [.other]) := by decide +kernel

/-- `any` and `exit` are typed at once, and `any` again while the first is executed. -/
example : glance ((bs!"any").flatMap pressed ++ enter ++ (bs!"exit").flatMap pressed ++ List.replicate 4 .task ++ enter ++ (bs!"any").flatMap pressed ++ enter ++ [.done] ++ List.replicate 5 .task ++ [.done, .ret, .destroy, .kb .wake, .join]) =
    some ([99, 5], 9, .over, []) := by decide +kernel

/-- After `exit` nothing is executed. -/
example : glance (leave ++ pressed b%'x' ++ [.task]) = none := by decide +kernel

/-- The main thread executes a command when a key is pressed. -/
example : ∃ s, start = some s ∧ ∃ s1, run haltApp (fun s => s.contains 99) 3 ((bs!"any").flatMap pressed ++ enter ++ List.replicate 4 .task) s = .ok (some (s1, none)) ∧ s1.busy = true ∧ s1.kb.reader = .wait ∧ s1.kb.records = [] ∧
    s1.kb.carry = none ∧ s1.kb.stopped = false ∧ s1.handled = 4 ∧ s1.kb.posted[3]? = some .ret := ⟨_, rfl, _, rfl, rfl, rfl, rfl, rfl, rfl, rfl, rfl⟩

/-- While a letter is handled nothing is executed. -/
example : ∃ s, start = some s ∧ s.busy = false ∧ ∃ s1, run haltApp (fun s => s.contains 99) 3 (pressed b%'a' ++ [.task]) s = .ok (some (s1, none)) ∧ s1.busy = false ∧ s1.handled = 1 := ⟨_, rfl, rfl, _, rfl, rfl, rfl⟩

end Verif.WinProgram
