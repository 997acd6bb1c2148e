import Verif.Props.Split
import Verif.Props.Telnet
import Verif.Props.FileSession

set_option linter.unusedSimpArgs false

/-!
# Property C95: the ends of lines

For lines ended by LF in files and streams see `C55_lines_partial` and `C72_lines`, for telnet `C49_line_partial`.
-/

namespace Verif.Props
open Spec FileSession Verif.Split
open Telnet (Tel Rx Step)
open Terminal (Key)

variable {σ τ : Type}

/-! ### CR LF in files and streams -/

/-- The number of characters in the arguments. -/
def crWeight (v : List Str) : Nat := (v.map List.length).sum

theorem weight_append (a b : List Str) : crWeight (a ++ b) = crWeight a + crWeight b := by simp [crWeight]

theorem weight_nonempty (v : List Str) : crWeight (removeEmptyEntries v) = crWeight v := by
  induction v with
  | nil => rfl
  | cons s v ih =>
    cases s with
    | nil => simpa [removeEmptyEntries, crWeight] using ih
    | cons c s => simp only [removeEmptyEntries, crWeight, List.filter_cons, List.isEmpty_cons, Bool.not_false, if_true, List.map_cons, List.sum_cons] at ih ⊢; rw [ih]

theorem weight_appendBack {v v' : List Str} {s : Str} (h : appendBack v s = .ok v') : crWeight v' = crWeight v + s.length := by
  rcases List.eq_nil_or_concat v with rfl | ⟨pre, w, rfl⟩
  · simp [appendBack] at h
  · simp only [List.concat_eq_append] at h ⊢
    rw [appendBack_snoc] at h
    cases h
    simp [crWeight, List.map_append]
    omega

/-- A carriage return always becomes part of an argument. -/
theorem weight_cr {t t' : Text} (h : t.eval 13 = .ok t') : crWeight t.splitResult < crWeight t'.splitResult := by
  have hb : isBlank 13 = false := by decide
  have hq : isQuote 13 = false := by decide
  have h1 : ((13 : Byte) == b%'\\') = false := by decide
  have h2 : ((13 : Byte) == b%'!') = false := by decide
  have h3 : ((13 : Byte) != b%'"' && (13 : Byte) != b%'\'' && (13 : Byte) != b%'\\') = true := by decide
  unfold Text.eval at h
  split at h
  · simp only [Text.evalSpace, hb, hq, h1, h2, Bool.false_eq_true, if_false, Except.ok.injEq] at h
    subst h
    simp [crWeight]
  · simp only [Text.evalWord, hb, hq, h1, h2, Bool.false_eq_true, if_false, bind, Except.bind] at h
    split at h
    · cases h
    · rename_i r hr
      cases h
      rw [weight_appendBack hr]
      simp
  · simp only [Text.evalSentence, hq, h1, Bool.false_eq_true, if_false, bind, Except.bind] at h
    split at h
    · cases h
    · rename_i r hr
      cases h
      rw [weight_appendBack hr]
      simp
  · simp only [Text.evalEscape, h3, if_true, bind, Except.bind] at h
    split at h
    · cases h
    · rename_i r hr
      split at h
      · cases h
      · rename_i r2 hr2
        cases h
        rw [weight_appendBack hr2, weight_appendBack hr]
        simp only [List.length_singleton]; omega

/-- **C95** Refuted: in files and streams the carriage return of CR LF belongs to the line, and whatever the line is, it changes its arguments. -/
theorem C95_crlf_refuted (line : Str) : split (line ++ [13]) ≠ split line := by
  intro h
  obtain ⟨args, ha⟩ := C03_split_total line
  rw [ha] at h
  unfold split at h ha
  rw [Split.run_append] at h
  cases hr : Text.reset.run line with
  | error e => rw [hr] at ha; simp [bind, Except.bind] at ha
  | ok t =>
    rw [hr] at h ha
    simp only [bind, Except.bind, pure, Except.pure, Except.ok.injEq] at ha
    simp only [Except.bind, Split.run_cons] at h
    cases he : t.eval 13 with
    | error e => simp only [he, Except.bind, bind] at h; cases h
    | ok t' =>
      simp only [he, Except.bind, Text.run, bind, pure, Except.pure, Except.ok.injEq] at h
      have := weight_cr he
      rw [← weight_nonempty t.splitResult, ← weight_nonempty t'.splitResult, h, ha] at this
      omega

/-- **C95** Refuted: a file with such lines: not even `exit` and empty lines are understood. Each of the lines is reported as a wrong command. -/
theorem C95_file_refuted : outcome (start onFile 3 9 (.of bs!"sub go\r\n\r\nexit\r\n") fileWorld) = some ([bs!"sub go\r", bs!"\r", bs!"exit\r"], [], false, 2) ∧
    outcome (start onFile 3 9 (.of bs!"sub go\n\nexit\n") fileWorld) = some ([bs!"sub go", [], bs!"exit"], [4], false, 2) := by
  constructor <;> decide +kernel

/-! ### LF in telnet sessions -/

theorem output_no_ret (s : Step) (c : Byte) (hs : s ≠ .wait0) (hc : c ≠ 13) : (Telnet.output s c).1 ≠ .wait0 ∧ (Telnet.output s c).2 ≠ some .ret := by
  cases s with
  | wait0 => exact absurd rfl hs
  | s1 => simp only [Telnet.output]; (repeat' split) <;> simp_all
  | s2 => simp only [Telnet.output]; split <;> simp
  | s3 => simp only [Telnet.output]; (repeat' split) <;> simp
  | s4 => simp only [Telnet.output]; split <;> simp

theorem keysOf_no_ret (s : Str) (h : 13 ∉ s) : ∀ (st : Step), st ≠ .wait0 → (keysOf st s).1 ≠ .wait0 ∧ .ret ∉ (keysOf st s).2 := by
  induction s with
  | nil => intro st hs; exact ⟨hs, by simp [keysOf]⟩
  | cons c s ih =>
    intro st hs
    obtain ⟨h1, h2⟩ := output_no_ret st c hs (fun e => h (by simp [e]))
    obtain ⟨h3, h4⟩ := ih (fun e => h (by simp [e])) _ h1
    refine ⟨h3, ?_⟩
    simp only [keysOf, List.mem_append, Option.mem_toList, not_or]
    exact ⟨fun e => h2 (by simpa using e), h4⟩

theorem rx_no_cr (s : Str) (h : 13 ∉ s) : ∀ r : Rx, 13 ∉ (rxRun r s).2.data := by
  induction s with
  | nil => intro r; simp [rxRun]
  | cons c s ih =>
    intro r
    have hc : c ≠ 13 := fun e => h (by simp [e])
    simp only [rxRun, List.mem_append, not_or]
    refine ⟨?_, ih (fun e => h (by simp [e])) _⟩
    have hd : ∀ st : Telnet.State, 13 ∉ (Telnet.data st c).2.data := by
      intro st; cases st <;> simp [Telnet.data]; exact fun e => hc e.symm
    have h' := consume_ok r c
    unfold Telnet.consume at h'
    split at h'
    · split at h'
      · simp only [Except.ok.injEq] at h'; rw [← h']; exact hd _
      · rename_i hh
        obtain ⟨s', hs⟩ := command_ok r.state c hh
        simp only [hs, bind, Except.bind, Except.ok.injEq] at h'
        rw [← h']; simp
    · split at h'
      · simp only [Except.ok.injEq] at h'; rw [← h']; simp
      · simp only [Except.ok.injEq] at h'; rw [← h']; exact hd _

/-- **C95** Refuted: in a telnet session LF does not end a line. Whatever a client sends that never sends CR, the session never gets the key Enter. -/
theorem C95_lf_refuted (t : Tel σ τ) (s : Str) (hs : 13 ∉ s) (ht : t.step ≠ .wait0) (hq : .ret ∉ t.queue) :
    ∃ t', Telnet.received t s = .ok t' ∧ t'.step ≠ .wait0 ∧ .ret ∉ t'.queue := by
  obtain ⟨h1, h2⟩ := keysOf_no_ret _ (rx_no_cr s hs t.rx) t.step ht
  exact ⟨_, received_after t s, h1, by simp only [after, List.mem_append, not_or]; exact ⟨hq, h2⟩⟩

/-- A line ended by LF, from a client like `nc`: it is shown, and nothing happens. -/
example : (Telnet.events Sample.app 5 (.packet bs!"any\nany\n" :: List.replicate 8 .task) ⟨Rx.init, .s1, [], Sample.proc Sample.world []⟩).map
    (fun r => (r.1.proc.w.app, r.1.proc.term.line, r.1.queue, r.2)) = .ok ([], bs!"any\nany\n", [], none) := by rfl

/-! ### CR LF and CR NUL in telnet sessions -/

/-- **C95** (part) In telnet sessions it makes no difference whether a line ends in CR LF or CR NUL, whatever the client has sent before (not in the middle of a command or an escape sequence). (That the line is executed is `C49_line_partial`.) Missing: LF alone
    (refuted above). -/
theorem C95_telnet_partial (t : Tel σ τ) (s more : Str) (h : (rxRun t.rx s).1 = Rx.init) (h1 : (keysOf t.step (rxRun t.rx s).2.data).1 = .s1) :
    Telnet.received t (s ++ [13, 10] ++ more) = Telnet.received t (s ++ [13, 0] ++ more) := by
  have key : after t (s ++ [13, 10]) = after t (s ++ [13, 0]) := by
    have e1 : ∀ c : Byte, c = 10 ∨ c = 0 → rxRun Rx.init [13, c] = (Rx.init, ⟨[13, c], []⟩) := by
      rintro c (rfl | rfl) <;> rfl
    have e2 : ∀ c : Byte, c = 10 ∨ c = 0 → keysOf .s1 [13, c] = (.s1, [.ret]) := by
      rintro c (rfl | rfl) <;> rfl
    simp only [after, rxRun_append, h, e1 10 (.inl rfl), e1 0 (.inr rfl), keysOf_append, h1, e2 10 (.inl rfl), e2 0 (.inr rfl)]
  have app : ∀ a, Telnet.received t (a ++ more) = Telnet.received (after t a) more := by
    intro a
    have : ∀ (a : Str) (t : Tel σ τ), Telnet.received t (a ++ more) = (Telnet.received t a).bind (fun t => Telnet.received t more) := by
      intro a
      induction a with
      | nil => intro t; rfl
      | cons c a ih =>
        intro t
        simp only [List.cons_append, Telnet.received, bind, Except.bind]
        cases Telnet.byte t c with
        | error f => rfl
        | ok t' => exact ih t'
    rw [this, received_after]; rfl
  rw [app, app, key]

example : (rxRun Rx.init bs!"any").1 = Rx.init ∧ (keysOf .s1 (rxRun Rx.init bs!"any").2.data).1 = .s1 := by decide

end Verif.Props
