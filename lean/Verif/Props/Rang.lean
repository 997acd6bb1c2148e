import Verif.Model.Rang
import Verif.Spec.Console

set_option linter.unusedSimpArgs false

/-!
# Properties C121 and C122: where escape sequences are written, and the colours of old Windows consoles
-/

namespace Verif.Rang
open Spec

/-! ### Proof -/

theorem strstr_iff (s t : Str) : strstr s t = true ↔ t <:+: s := by
  induction s with
  | nil =>
    simp only [strstr, List.isPrefixOf_iff_prefix]
    exact ⟨fun h => h.isInfix, fun h => by rw [List.infix_nil.1 h]; exact List.prefix_rfl⟩
  | cons c s ih =>
    simp only [strstr, Bool.or_eq_true, List.isPrefixOf_iff_prefix, ih, List.infix_cons_iff]

/-- Whether escape sequences are written to a stream that is not forced. -/
def tty (os : Os) (e : Env) (buf : Nat) : Bool := (supportsColor os e Statics.init).2 && (isTerminal e buf Statics.init).2

theorem tty_iff (os : Os) (e : Env) (buf : Nat) : tty os e buf = true ↔ Understands os e ∧ OnTerminal e buf := by
  unfold tty
  rw [Bool.and_eq_true]
  refine and_congr ?_ ?_
  · cases os with
    | windows o => simp [supportsColor, Understands]
    | unix =>
      cases ht : e.term with
      | none => simp [supportsColor, ht, Understands]
      | some t =>
        simp only [supportsColor, ht, Statics.init, List.any_eq_true, strstr_iff, Understands, Option.some.injEq, exists_eq_left']
        exact Iff.rfl
  · simp only [isTerminal, coutbuf, cerrbuf, clogbuf, Statics.init, OnTerminal]
    by_cases h1 : buf = e.cout
    · simp [h1]
    · by_cases h2 : buf = e.cerr
      · have h1' := h2 ▸ h1
        simp [h1', h2]
      · by_cases h3 : buf = e.clog
        · have h1' := h3 ▸ h1
          have h2' := h3 ▸ h2
          simp [h1', h2', h3]
        · simp [h1, h2, h3]

/-- The static variables have the values that they get in this environment, as far as they have been initialised. -/
structure Fits (e : Env) (s : Statics) : Prop where
  result : ∀ t, e.term = some t → s.result = none ∨ s.result = some (terms.any (strstr t))
  out : s.out = none ∨ s.out = some e.cout
  err : s.err = none ∨ s.err = some e.cerr
  log : s.log = none ∨ s.log = some e.clog

theorem fits_init (e : Env) : Fits e Statics.init := ⟨fun _ _ => .inl rfl, .inl rfl, .inl rfl, .inl rfl⟩

theorem supports_fits {os : Os} {e : Env} {s : Statics} (h : Fits e s) :
    (supportsColor os e s).2 = (supportsColor os e Statics.init).2 ∧ Fits e (supportsColor os e s).1 ∧ (supportsColor os e s).1.attr = s.attr := by
  cases os with
  | windows o => exact ⟨rfl, h, rfl⟩
  | unix =>
    cases ht : e.term with
    | none => simp only [supportsColor, ht, true_and, and_true]; exact h
    | some t =>
      rcases h.result t ht with hr | hr
      · simp only [supportsColor, ht, hr, Statics.init]
        exact ⟨trivial, ⟨fun t' h' => by cases ht.symm.trans h'; exact .inr rfl, h.out, h.err, h.log⟩, trivial⟩
      · simp only [supportsColor, ht, hr, Statics.init, true_and, and_true]
        exact h

theorem coutbuf_fits {e : Env} {s : Statics} (h : Fits e s) : (coutbuf e s).2 = e.cout ∧ Fits e (coutbuf e s).1 ∧ (coutbuf e s).1.attr = s.attr := by
  unfold coutbuf
  rcases h.out with hr | hr <;> rw [hr]
  · exact ⟨rfl, ⟨h.result, .inr rfl, h.err, h.log⟩, rfl⟩
  · exact ⟨rfl, h, rfl⟩

theorem cerrbuf_fits {e : Env} {s : Statics} (h : Fits e s) : (cerrbuf e s).2 = e.cerr ∧ Fits e (cerrbuf e s).1 ∧ (cerrbuf e s).1.attr = s.attr := by
  unfold cerrbuf
  rcases h.err with hr | hr <;> rw [hr]
  · exact ⟨rfl, ⟨h.result, h.out, .inr rfl, h.log⟩, rfl⟩
  · exact ⟨rfl, h, rfl⟩

theorem clogbuf_fits {e : Env} {s : Statics} (h : Fits e s) : (clogbuf e s).2 = e.clog ∧ Fits e (clogbuf e s).1 ∧ (clogbuf e s).1.attr = s.attr := by
  unfold clogbuf
  rcases h.log with hr | hr <;> rw [hr]
  · exact ⟨rfl, ⟨h.result, h.out, h.err, .inr rfl⟩, rfl⟩
  · exact ⟨rfl, h, rfl⟩

theorem terminal_fits {e : Env} {s : Statics} (buf : Nat) (h : Fits e s) :
    (isTerminal e buf s).2 = (isTerminal e buf Statics.init).2 ∧ Fits e (isTerminal e buf s).1 ∧ (isTerminal e buf s).1.attr = s.attr := by
  obtain ⟨a1, a2, a3⟩ := coutbuf_fits h
  obtain ⟨b1, b2, b3⟩ := cerrbuf_fits a2
  obtain ⟨c1, c2, c3⟩ := clogbuf_fits b2
  obtain ⟨i1, i2, _⟩ := coutbuf_fits (fits_init e)
  obtain ⟨j1, j2, _⟩ := cerrbuf_fits i2
  obtain ⟨k1, _, _⟩ := clogbuf_fits j2
  unfold isTerminal
  simp only [a1, b1, c1, i1, j1, k1]
  by_cases h1 : buf = e.cout
  · simp only [if_pos h1]; exact ⟨trivial, a2, a3⟩
  · simp only [if_neg h1]
    by_cases h2 : buf = e.cerr
    · simp only [if_pos h2]; exact ⟨trivial, b2, b3.trans a3⟩
    · simp only [if_neg h2]
      by_cases h3 : buf = e.clog
      · simp only [if_pos h3]; exact ⟨trivial, c2, c3.trans (b3.trans a3)⟩
      · simp only [if_neg h3]; exact ⟨trivial, c2, c3.trans (b3.trans a3)⟩

/-- What `Model/Style` does for the same operation. -/
def styled (io : Io) : Op → Io
  | .text t => io.put t
  | .beforePrompt => io.beforePrompt
  | .afterPrompt => io.afterPrompt
  | .beforeInput => io.beforeInput
  | .afterInput => io.afterInput
  | .color on => { io with style := { io.style with color := on } }
  | .redirect _ => io

/-- The two models agree. -/
structure Agree (os : Os) (e : Env) (s : St) (io : Io) : Prop where
  out : s.os.out = io.out
  color : s.color = io.style.color
  forced : s.os.iword = io.style.forced
  tty : io.style.tty = tty os e s.os.buf
  fits : Fits e s.statics

theorem agree_put {os : Os} (ho : os ≠ .windows true) {e : Env} {s : St} {io : Io} (h : Agree os e s io) (v : Value) : ∃ s', put os e v s = .ok s' ∧ Agree os e s' (io.sgr v.num) ∧ s'.os.buf = s.os.buf := by
  have hset : ∀ s : St, setColor os e v s = .ok { s with os := { s.os with out := s.os.out ++ 27 :: b%'[' :: decimal v.num ++ [b%'m'] } } := by
    intro s
    unfold setColor
    cases os with
    | unix => rfl
    | windows o => cases o with
      | true => exact absurd rfl ho
      | false => rfl
  unfold put Io.sgr
  cases hf : s.os.iword with
  | true =>
    have hf' : io.style.forced = true := h.forced.symm.trans hf
    rw [hset, hf', Bool.true_or, if_pos rfl, if_pos rfl]
    exact ⟨_, rfl, ⟨by simp [Io.put, h.out], h.color, h.forced, h.tty, h.fits⟩, rfl⟩
  | false =>
    obtain ⟨a1, a2, _⟩ := supports_fits (os := os) h.fits
    obtain ⟨b1, b2, _⟩ := terminal_fits s.os.buf a2
    have ht := h.tty
    unfold Rang.tty at ht
    rw [← h.forced, hf]
    simp only [Bool.false_or, if_false, Bool.false_eq_true]
    cases hs : supportsColor os e s.statics with
    | mk t b =>
      rw [hs] at a1 a2 b1 b2
      simp only at a1 a2 b1 b2
      rw [← a1] at ht
      cases b with
      | false =>
        rw [Bool.false_and] at ht
        rw [ht]
        exact ⟨_, rfl, ⟨h.out, h.color, h.forced, h.tty, a2⟩, rfl⟩
      | true =>
        simp only
        cases hi : isTerminal e s.os.buf t with
        | mk t2 b2' =>
          rw [hi] at b1 b2
          simp only at b1 b2
          rw [← b1, Bool.true_and] at ht
          rw [ht]
          cases b2' with
          | false => exact ⟨_, rfl, ⟨h.out, h.color, h.forced, h.tty, b2⟩, rfl⟩
          | true =>
            simp only [hset, if_true]
            refine ⟨_, rfl, ⟨?_, h.color, h.forced, h.tty, b2⟩, rfl⟩
            simp [Io.put, h.out]

theorem agree_force {os : Os} {e : Env} {s : St} {io : Io} (h : Agree os e s io) : Agree os e (force s) io.force := ⟨h.out, h.color, rfl, h.tty, h.fits⟩

theorem agree_step {os : Os} (ho : os ≠ .windows true) {e : Env} {s : St} {io : Io} (h : Agree os e s io) (o : Op) (hr : ∀ b, o ≠ .redirect b) :
    ∃ s', step os e s o = .ok s' ∧ Agree os e s' (styled io o) := by
  cases o with
  | text t => exact ⟨_, rfl, ⟨by simp [styled, Io.put, h.out], h.color, h.forced, h.tty, h.fits⟩⟩
  | beforePrompt =>
    simp only [step, styled, Io.beforePrompt, ← h.color]
    cases hc : s.color with
    | false => exact ⟨s, rfl, h⟩
    | true =>
      obtain ⟨s1, e1, h1, _⟩ := agree_put ho (agree_force h) (.fg 32)
      obtain ⟨s2, e2, h2, _⟩ := agree_put ho h1 (.style 1)
      refine ⟨s2, ?_, h2⟩
      simp only [if_true, e1, bind, Except.bind]
      exact e2
  | afterPrompt =>
    obtain ⟨s1, e1, h1, _⟩ := agree_put ho h (.style 0)
    exact ⟨s1, e1, h1⟩
  | beforeInput =>
    simp only [step, styled, Io.beforeInput, ← h.color]
    cases hc : s.color with
    | false => exact ⟨s, rfl, h⟩
    | true =>
      obtain ⟨s1, e1, h1, _⟩ := agree_put ho (agree_force h) (.fgB 97)
      exact ⟨s1, e1, h1⟩
  | afterInput =>
    obtain ⟨s1, e1, h1, _⟩ := agree_put ho h (.style 0)
    exact ⟨s1, e1, h1⟩
  | color on => exact ⟨_, rfl, ⟨h.out, rfl, h.forced, h.tty, h.fits⟩⟩
  | redirect b => exact absurd rfl (hr b)

theorem agree_run {os : Os} (ho : os ≠ .windows true) {e : Env} (ops : List Op) : ∀ {s : St} {io : Io}, Agree os e s io → (∀ b, .redirect b ∉ ops) →
    ∃ s', run os (ops.map (fun o => (e, o))) s = .ok s' ∧ Agree os e s' (ops.foldl styled io) := by
  induction ops with
  | nil => intro s io h _; exact ⟨s, rfl, h⟩
  | cons o ops ih =>
    intro s io h hr
    obtain ⟨s1, e1, h1⟩ := agree_step ho h o (fun b hb => hr b (by simp [hb]))
    obtain ⟨s2, e2, h2⟩ := ih h1 (fun b hb => hr b (by simp [hb]))
    exact ⟨s2, by simp only [List.map_cons, run, e1, bind, Except.bind, e2], h2⟩

theorem styled_plain (ops : List Op) : ∀ io : Io, io.style = ⟨false, false, false⟩ → .color true ∉ ops → (ops.foldl styled io).out = io.out ++ texts ops := by
  induction ops with
  | nil => intro io _ _; simp [texts]
  | cons o ops ih =>
    intro io h hc
    have hc' : Op.color true ∉ ops := fun k => hc (by simp [k])
    cases o with
    | text t => simp only [List.foldl_cons, styled, texts]; rw [ih _ (by simpa [Io.put] using h) hc']; simp [Io.put]
    | beforePrompt => simp only [List.foldl_cons, styled, texts, Io.beforePrompt, h, Bool.false_eq_true, if_false]; exact ih io h hc'
    | afterPrompt => simp only [List.foldl_cons, styled, texts, Io.afterPrompt, Io.sgr, h, Bool.false_eq_true, if_false, Bool.or_self]; exact ih io h hc'
    | beforeInput => simp only [List.foldl_cons, styled, texts, Io.beforeInput, h, Bool.false_eq_true, if_false]; exact ih io h hc'
    | afterInput => simp only [List.foldl_cons, styled, texts, Io.afterInput, Io.sgr, h, Bool.false_eq_true, if_false, Bool.or_self]; exact ih io h hc'
    | color on =>
      cases on with
      | true => exact absurd (by simp) hc
      | false => simp only [List.foldl_cons, styled, texts]; exact ih _ (by simp [h]) hc'
    | redirect b => simp only [List.foldl_cons, styled, texts]; exact ih io h hc'

/-! ### C121 -/

/-- **C121** (part) In an environment that does not change (and not on an old Windows console): what the stream gets is what `Model/Style` says, with the constant `tty` if and only if the stream belongs to a terminal that understands escape
    sequences. -/
theorem C121_style (os : Os) (ho : os ≠ .windows true) (e : Env) (ops : List Op) (hr : ∀ b, .redirect b ∉ ops) (color forced : Bool) (buf : Nat) (out : Str) (con : List (BitVec 16)) :
    ∃ s b, run os (ops.map (fun o => (e, o))) ⟨color, Statics.init, ⟨buf, forced, out⟩, con⟩ = .ok s ∧ (b = true ↔ Understands os e ∧ OnTerminal e buf) ∧
      s.os.out = (ops.foldl styled ⟨⟨color, b, forced⟩, out⟩).out := by
  obtain ⟨s, h1, h2⟩ := agree_run ho ops (s := ⟨color, Statics.init, ⟨buf, forced, out⟩, con⟩) (io := ⟨⟨color, tty os e buf, forced⟩, out⟩) ⟨rfl, rfl, rfl, rfl, fits_init e⟩ hr
  exact ⟨s, _, h1, tty_iff os e buf, h2.out⟩

/-- **C121** (part) In particular, if colours have never been switched on, nothing but the texts is written to a stream that does not belong to such a terminal. -/
theorem C121_plain_partial (os : Os) (ho : os ≠ .windows true) (e : Env) (ops : List Op) (hr : ∀ b, .redirect b ∉ ops) (hc : .color true ∉ ops) (buf : Nat) (out : Str) (con : List (BitVec 16))
    (ht : ¬ (Understands os e ∧ OnTerminal e buf)) :
    ∃ s, run os (ops.map (fun o => (e, o))) ⟨false, Statics.init, ⟨buf, false, out⟩, con⟩ = .ok s ∧ s.os.out = out ++ texts ops := by
  obtain ⟨s, b, h1, h2, h3⟩ := C121_style os ho e ops hr false false buf out con
  have hb : b = false := by cases b with
    | false => rfl
    | true => exact absurd (h2.1 rfl) ht
  subst hb
  exact ⟨s, h1, by rw [h3, styled_plain ops _ rfl hc]⟩

/-! ### An environment that changes -/

/-- If the values of the static variables never make a stream coloured, only texts are written. -/
theorem quiet_run (os : Os) (I : Nat → Statics → Prop) (l : List (Env × Op))
    (hI : ∀ eo ∈ l, ∀ buf s, I buf s → I buf (supportsColor os eo.1 s).1 ∧ ((supportsColor os eo.1 s).2 = true → I buf (isTerminal eo.1 buf (supportsColor os eo.1 s).1).1 ∧ (isTerminal eo.1 buf (supportsColor os eo.1 s).1).2 = false))
    (hr : ∀ eo ∈ l, ∀ b, eo.2 = .redirect b → ∀ buf s, I buf s → I b s) (hc : ∀ eo ∈ l, eo.2 ≠ .color true) :
    ∀ s : St, s.color = false → s.os.iword = false → I s.os.buf s.statics →
      ∃ s', run os l s = .ok s' ∧ s'.os.out = s.os.out ++ texts (l.map Prod.snd) := by
  induction l with
  | nil => intro s _ _ _; exact ⟨s, rfl, by simp [texts]⟩
  | cons eo l ih =>
    obtain ⟨e, o⟩ := eo
    intro s h1 h2 h3
    have ih := ih (fun eo h => hI eo (List.mem_cons_of_mem _ h)) (fun eo h => hr eo (List.mem_cons_of_mem _ h)) (fun eo h => hc eo (List.mem_cons_of_mem _ h))
    have hput : ∀ v, ∃ s1, put os e v s = .ok s1 ∧ s1.color = false ∧ s1.os = s.os ∧ I s1.os.buf s1.statics := by
      intro v
      have hi := hI (e, o) List.mem_cons_self s.os.buf s.statics h3
      unfold put
      rw [h2]
      cases hs : supportsColor os e s.statics with
      | mk t b =>
        rw [hs] at hi
        cases b with
        | false => exact ⟨_, rfl, h1, rfl, hi.1⟩
        | true =>
          have hi := hi.2 rfl
          simp only at hi
          cases ht : isTerminal e s.os.buf t with
          | mk t2 b2 =>
            rw [ht] at hi
            obtain ⟨hi1, hi2⟩ := hi
            simp only at hi1 hi2
            subst hi2
            simp only [ht, Bool.false_eq_true, if_false]
            exact ⟨_, rfl, h1, rfl, hi1⟩
    have hgo : ∀ v, ∃ s', (put os e v s >>= run os l) = .ok s' ∧ s'.os.out = s.os.out ++ texts (l.map Prod.snd) := by
      intro v
      obtain ⟨s1, e1, c1, o1, i1⟩ := hput v
      obtain ⟨s2, e2, o2⟩ := ih s1 c1 (by rw [o1]; exact h2) i1
      exact ⟨s2, by rw [e1]; exact e2, by rw [o2, o1]⟩
    cases o with
    | text t =>
      obtain ⟨s2, e2, o2⟩ := ih { s with os := { s.os with out := s.os.out ++ t } } h1 h2 h3
      exact ⟨s2, e2, by rw [o2]; simp [texts]⟩
    | beforePrompt =>
      obtain ⟨s2, e2, o2⟩ := ih s h1 h2 h3
      exact ⟨s2, by simp only [run, step, h1, Bool.false_eq_true, if_false]; exact e2, by rw [o2]; simp [texts]⟩
    | beforeInput =>
      obtain ⟨s2, e2, o2⟩ := ih s h1 h2 h3
      exact ⟨s2, by simp only [run, step, h1, Bool.false_eq_true, if_false]; exact e2, by rw [o2]; simp [texts]⟩
    | afterPrompt => exact hgo _
    | afterInput => exact hgo _
    | color on =>
      cases on with
      | true => exact absurd rfl (hc _ List.mem_cons_self)
      | false =>
        obtain ⟨s2, e2, o2⟩ := ih { s with color := false } rfl h2 h3
        exact ⟨s2, e2, by rw [o2]; simp [texts]⟩
    | redirect b =>
      obtain ⟨s2, e2, o2⟩ := ih { s with os := { s.os with buf := b } } h1 h2 (hr _ List.mem_cons_self b rfl _ _ h3)
      exact ⟨s2, e2, by rw [o2]; simp [texts]⟩

/-- The static variables do not hold this buffer. -/
def Apart (buf : Nat) (s : Statics) : Prop := s.out ≠ some buf ∧ s.err ≠ some buf ∧ s.log ≠ some buf

theorem apart_supports (os : Os) (e : Env) {buf : Nat} {s : Statics} (h : Apart buf s) : Apart buf (supportsColor os e s).1 := by
  unfold supportsColor
  cases os with
  | windows o => exact h
  | unix =>
    cases e.term with
    | none => exact h
    | some t => cases hr : s.result <;> simp only <;> exact h

theorem apart_terminal (e : Env) {buf : Nat} {s : Statics} (h : Apart buf s) (he : buf ≠ e.cout ∧ buf ≠ e.cerr ∧ buf ≠ e.clog) :
    Apart buf (isTerminal e buf s).1 ∧ (isTerminal e buf s).2 = false := by
  have h1 : Apart buf (coutbuf e s).1 ∧ buf ≠ (coutbuf e s).2 := by
    unfold coutbuf
    cases hr : s.out with
    | none => exact ⟨⟨fun k => he.1 (Option.some.inj k).symm, h.2.1, h.2.2⟩, he.1⟩
    | some b => exact ⟨h, fun k => h.1 (hr.trans (congrArg some k.symm))⟩
  have h2 : Apart buf (cerrbuf e (coutbuf e s).1).1 ∧ buf ≠ (cerrbuf e (coutbuf e s).1).2 := by
    unfold cerrbuf
    cases hr : (coutbuf e s).1.err with
    | none => exact ⟨⟨h1.1.1, fun k => he.2.1 (Option.some.inj k).symm, h1.1.2.2⟩, he.2.1⟩
    | some b => exact ⟨h1.1, fun k => h1.1.2.1 (hr.trans (congrArg some k.symm))⟩
  have h3 : Apart buf (clogbuf e (cerrbuf e (coutbuf e s).1).1).1 ∧ buf ≠ (clogbuf e (cerrbuf e (coutbuf e s).1).1).2 := by
    unfold clogbuf
    cases hr : (cerrbuf e (coutbuf e s).1).1.log with
    | none => exact ⟨⟨h2.1.1, h2.1.2.1, fun k => he.2.2 (Option.some.inj k).symm⟩, he.2.2⟩
    | some b => exact ⟨h2.1, fun k => h2.1.2.2 (hr.trans (congrArg some k.symm))⟩
  unfold isTerminal
  simp only
  rw [if_neg h1.2, if_neg h2.2, if_neg h3.2]
  exact ⟨h3.1, rfl⟩

/-- **C121** (part) However the environment changes, on any system: if colours have never been switched on, nothing but the texts is written to a stream that never has the buffer of a standard stream, such as a file or the stream of a telnet
    session. -/
theorem C121_foreign_partial (os : Os) (l : List (Env × Op)) (hc : ∀ eo ∈ l, eo.2 ≠ .color true) (buf : Nat) (out : Str) (con : List (BitVec 16))
    (hb : ∀ b, b = buf ∨ .redirect b ∈ l.map Prod.snd → ∀ eo ∈ l, b ≠ eo.1.cout ∧ b ≠ eo.1.cerr ∧ b ≠ eo.1.clog) :
    ∃ s, run os l ⟨false, Statics.init, ⟨buf, false, out⟩, con⟩ = .ok s ∧ s.os.out = out ++ texts (l.map Prod.snd) := by
  refine quiet_run os (fun b s => (b = buf ∨ .redirect b ∈ l.map Prod.snd) ∧ (∀ b, b = buf ∨ .redirect b ∈ l.map Prod.snd → Apart b s)) l ?_ ?_ hc _ rfl rfl
    ⟨.inl rfl, fun b _ => ⟨(fun k => by cases k), (fun k => by cases k), (fun k => by cases k)⟩⟩
  · intro eo he b s ⟨h1, h2⟩
    have h3 : ∀ b, b = buf ∨ .redirect b ∈ l.map Prod.snd → Apart b (supportsColor os eo.1 s).1 := fun b hb' => apart_supports os eo.1 (h2 b hb')
    refine ⟨⟨h1, h3⟩, fun _ => ⟨⟨h1, ?_⟩, (apart_terminal eo.1 (h3 b h1) (hb b h1 eo he)).2⟩⟩
    intro b' hb'
    have k1 := h3 b' hb'
    have k2 := hb b' hb' eo he
    generalize (supportsColor os eo.1 s).1 = t at k1
    have c1 : Apart b' (coutbuf eo.1 t).1 := by
      unfold coutbuf
      cases hr : t.out with
      | none => exact ⟨fun k => k2.1 (Option.some.inj k).symm, k1.2.1, k1.2.2⟩
      | some _ => exact k1
    have c2 : Apart b' (cerrbuf eo.1 (coutbuf eo.1 t).1).1 := by
      unfold cerrbuf
      cases hr : (coutbuf eo.1 t).1.err with
      | none => exact ⟨c1.1, fun k => k2.2.1 (Option.some.inj k).symm, c1.2.2⟩
      | some _ => exact c1
    have c3 : Apart b' (clogbuf eo.1 (cerrbuf eo.1 (coutbuf eo.1 t).1).1).1 := by
      unfold clogbuf
      cases hr : (cerrbuf eo.1 (coutbuf eo.1 t).1).1.log with
      | none => exact ⟨c2.1, c2.2.1, fun k => k2.2.2 (Option.some.inj k).symm⟩
      | some _ => exact c2
    unfold isTerminal
    simp only
    split
    · exact c1
    · split
      · exact c2
      · split <;> exact c3
  · intro eo he b hb' _ s h
    exact ⟨.inr (hb' ▸ List.mem_map_of_mem he), h.2⟩

/-- **C121** (part) However the environment changes: if colours have never been switched on, and neither the standard output nor the standard error is ever a terminal, nothing but the texts is written. -/
theorem C121_no_terminal_partial (os : Os) (l : List (Env × Op)) (hc : ∀ eo ∈ l, eo.2 ≠ .color true) (ht : ∀ eo ∈ l, eo.1.ttyOut = false ∧ eo.1.ttyErr = false) (statics : Statics) (buf : Nat) (out : Str) (con : List (BitVec 16)) :
    ∃ s, run os l ⟨false, statics, ⟨buf, false, out⟩, con⟩ = .ok s ∧ s.os.out = out ++ texts (l.map Prod.snd) := by
  refine quiet_run os (fun _ _ => True) l ?_ (fun _ _ _ _ _ _ _ => trivial) hc _ rfl rfl trivial
  intro eo he b s _
  refine ⟨trivial, fun _ => ⟨trivial, ?_⟩⟩
  unfold isTerminal
  simp only [(ht eo he).1, (ht eo he).2]
  split
  · rfl
  · split
    · rfl
    · split <;> rfl

/-- **C121** (part) However the environment changes: if colours have never been switched on, and no value that `TERM` ever has is that of a terminal that understands escape sequences, nothing but the texts is written. -/
theorem C121_dumb_partial (os : Os) (l : List (Env × Op)) (hc : ∀ eo ∈ l, eo.2 ≠ .color true) (ht : ∀ eo ∈ l, ¬ Understands os eo.1) (buf : Nat) (out : Str) (con : List (BitVec 16)) :
    ∃ s, run os l ⟨false, Statics.init, ⟨buf, false, out⟩, con⟩ = .ok s ∧ s.os.out = out ++ texts (l.map Prod.snd) := by
  refine quiet_run os (fun _ s => s.result ≠ some true) l ?_ (fun _ _ _ _ _ _ h => h) hc _ rfl rfl (fun k => by cases k)
  intro eo he b s hs
  have hu := ht eo he
  cases os with
  | windows o => exact absurd trivial hu
  | unix =>
    unfold supportsColor
    cases hterm : eo.1.term with
    | none => exact ⟨hs, fun k => by cases k⟩
    | some t =>
      cases hr : s.result with
      | some v =>
        cases v with
        | true => exact absurd hr hs
        | false => exact ⟨hs, fun k => by cases k⟩
      | none =>
        have hf : terms.any (strstr t) = false := by
          rw [Bool.eq_false_iff]
          intro k
          obtain ⟨n, hn, hk⟩ := List.any_eq_true.1 k
          exact hu ⟨t, hterm, n, hn, (strstr_iff _ _).1 hk⟩
        simp only [hf]
        exact ⟨(fun k => by cases k), (fun k => by cases k)⟩

/-- A terminal on both outputs; the standard streams have the buffers 1, 2 and 2. -/
def xterm : Env := ⟨some bs!"xterm-256color", 1, 2, 2, true, true⟩

/-- The escape sequence that ends a colour. -/
def resets : Str := 27 :: bs!"[0m"

/-- **C121** (refuted) If a program redirects `std::cout` to a file, then whether escape sequences are written to the file depends on whether there has been a prompt before: only the first time the library looks which buffer is that of the
    terminal. -/
theorem C121_redirect_refuted :
    (∃ s, run .unix [(xterm, .text bs!"hi"), ({ xterm with cout := 7 }, .redirect 7), ({ xterm with cout := 7 }, .text bs!"cli> "), ({ xterm with cout := 7 }, .afterPrompt)]
        ⟨false, Statics.init, ⟨1, false, []⟩, []⟩ = .ok s ∧ s.os.out = bs!"hicli> " ++ resets) ∧
    (∃ s, run .unix [(xterm, .text bs!"hi"), (xterm, .afterPrompt), ({ xterm with cout := 7 }, .redirect 7), ({ xterm with cout := 7 }, .text bs!"cli> "), ({ xterm with cout := 7 }, .afterPrompt)]
        ⟨false, Statics.init, ⟨1, false, []⟩, []⟩ = .ok s ∧ s.os.out = bs!"hi" ++ resets ++ bs!"cli> ") :=
  ⟨⟨_, rfl, by decide +kernel⟩, ⟨_, rfl, by decide +kernel⟩⟩

/-- **C121** (refuted) `TERM` is examined once: a program that has written to a terminal that understands escape sequences and then goes on in another one (having set `TERM`) writes them there, too; while the terminal is unknown at first, they are
    never written. -/
theorem C121_term_refuted :
    (∃ s, run .unix [(xterm, .afterPrompt), ({ xterm with term := some bs!"dumb" }, .afterPrompt)] ⟨false, Statics.init, ⟨1, false, []⟩, []⟩ = .ok s ∧ s.os.out = resets ++ resets) ∧
    (∃ s, run .unix [({ xterm with term := some bs!"dumb" }, .afterPrompt), (xterm, .afterPrompt)] ⟨false, Statics.init, ⟨1, false, []⟩, []⟩ = .ok s ∧ s.os.out = []) :=
  ⟨⟨_, rfl, by decide +kernel⟩, ⟨_, rfl, by decide +kernel⟩⟩

/-- **C121** (refuted) `SetNoColor` does not undo `SetColor`: every prompt afterwards still ends with an escape sequence, on a stream that is no terminal, in any environment. -/
theorem C121_nocolor_refuted (e : Env) (buf : Nat) : ∃ s, run .unix [(e, .color true), (e, .beforePrompt), (e, .afterPrompt), (e, .color false), (e, .text bs!"cli> "), (e, .afterPrompt)] ⟨false, Statics.init, ⟨buf, false, []⟩, []⟩ = .ok s ∧
    s.os.out = 27 :: bs!"[32m" ++ 27 :: bs!"[1m" ++ resets ++ bs!"cli> " ++ resets := by
  refine ⟨_, rfl, ?_⟩
  show ([] ++ _ ++ _ ++ _ ++ _ ++ _ : Str) = _
  decide +kernel

/-! Cases: a session in a terminal, whose prompts end with the escape sequence; the same one with the output in a file. -/

example : Understands .unix xterm ∧ OnTerminal xterm 1 ∧ OnTerminal xterm 2 ∧ ¬ OnTerminal xterm 7 := by
  refine ⟨⟨_, rfl, bs!"xterm", by decide +kernel, [], bs!"-256color", rfl⟩, .inl ⟨rfl, rfl⟩, .inr ⟨by decide, .inl rfl, rfl⟩, ?_⟩
  rintro (⟨h, _⟩ | ⟨_, h | h, _⟩) <;> exact absurd h (by decide)

example : ¬ Understands .unix { xterm with term := some bs!"dumb" } := by
  rintro ⟨t, h, n, hn, hi⟩
  cases h
  exact absurd ((strstr_iff _ _).2 hi) (by revert n; decide +kernel)

example : ∃ s, run .unix [(xterm, .text bs!"cli> "), (xterm, .afterPrompt)] ⟨false, Statics.init, ⟨1, false, []⟩, []⟩ = .ok s ∧ s.os.out = bs!"cli> " ++ resets := ⟨_, rfl, by decide +kernel⟩

example : ∃ s, run .unix [({ xterm with ttyOut := false }, .text bs!"cli> "), ({ xterm with ttyOut := false }, .afterPrompt)] ⟨false, Statics.init, ⟨1, false, []⟩, []⟩ = .ok s ∧ s.os.out = bs!"cli> " := ⟨_, rfl, by decide +kernel⟩

/-- A file, while `TERM` and the standard output change. -/
example : ∃ s, run .unix [(xterm, .text bs!"cli> "), (xterm, .afterPrompt), ({ xterm with term := none, cout := 9 }, .text bs!"hi"), ({ xterm with cout := 9 }, .afterInput)] ⟨false, Statics.init, ⟨7, false, []⟩, []⟩ = .ok s ∧
    s.os.out = bs!"cli> hi" :=
  C121_foreign_partial .unix _ (by simp) 7 [] [] (by simp [xterm])

/-! ### C122 -/

/-- The colours of the terminals as those of the console. -/
theorem reverse_bits (c : Nat) (hc : c < 8) : ∃ v : BitVec 16, reverseRGB c = .ok v ∧
    ∀ i, v.getLsbD i = if i = 0 then c.testBit 2 else if i = 1 then c.testBit 1 else if i = 2 then c.testBit 0 else false := by
  have key : ∀ v : BitVec 16, v.toNat < 8 → v.toNat = (if c.testBit 2 then 1 else 0) + (if c.testBit 1 then 2 else 0) + (if c.testBit 0 then 4 else 0) →
      ∀ i, v.getLsbD i = if i = 0 then c.testBit 2 else if i = 1 then c.testBit 1 else if i = 2 then c.testBit 0 else false := by
    intro v hv he i
    rw [BitVec.getLsbD]
    by_cases h3 : 3 ≤ i
    · rw [Nat.testBit_lt_two_pow (Nat.lt_of_lt_of_le hv (by simpa using Nat.pow_le_pow_right (n := 2) (by decide) h3))]
      rw [if_neg (by omega), if_neg (by omega), if_neg (by omega)]
    · rw [he]
      have : i = 0 ∨ i = 1 ∨ i = 2 := by omega
      rcases this with rfl | rfl | rfl <;> cases c.testBit 0 <;> cases c.testBit 1 <;> cases c.testBit 2 <;> decide
  have : c = 0 ∨ c = 1 ∨ c = 2 ∨ c = 3 ∨ c = 4 ∨ c = 5 ∨ c = 6 ∨ c = 7 := by omega
  rcases this with rfl | rfl | rfl | rfl | rfl | rfl | rfl | rfl <;> exact ⟨_, rfl, key _ (by decide) (by decide)⟩

/-- **C122** (part) On a console of Windows before 10, each of the eight colours of the letters sets the bits of the letters to this colour, and no others. -/
theorem C122_fg (st : BitVec 16) (c : Nat) (hc : c < 8) : ∃ st', setWinAttribute (.fg (30 + c)) st = .ok st' ∧ Painted 0 false c st st' := by
  obtain ⟨v, h1, h2⟩ := reverse_bits c hc
  refine ⟨_, by simp only [setWinAttribute, Nat.add_sub_cancel_left, h1]; rfl, ?_⟩
  intro i hi
  rw [BitVec.getLsbD_or, BitVec.getLsbD_and, h2]
  have : i = 0 ∨ i = 1 ∨ i = 2 ∨ i = 3 ∨ 4 ≤ i := by omega
  rcases this with rfl | rfl | rfl | rfl | h
  · simp
  · simp
  · simp
  · simp
  · have hm : (0xFFF0 : BitVec 16).getLsbD i = true := by
      have : i = 4 ∨ i = 5 ∨ i = 6 ∨ i = 7 ∨ i = 8 ∨ i = 9 ∨ i = 10 ∨ i = 11 ∨ i = 12 ∨ i = 13 ∨ i = 14 ∨ i = 15 := by omega
      rcases this with rfl | rfl | rfl | rfl | rfl | rfl | rfl | rfl | rfl | rfl | rfl | rfl <;> decide
    rw [hm, if_neg (by omega), if_neg (by omega), if_neg (by omega), if_neg (by omega), if_neg (by omega), if_neg (by omega), if_neg (by omega)]
    simp

/-- **C122** (part) So does each of the bright colours, with the bit that makes them bright. -/
theorem C122_fgB (st : BitVec 16) (c : Nat) (hc : c < 8) : ∃ st', setWinAttribute (.fgB (90 + c)) st = .ok st' ∧ Painted 0 true c st st' := by
  obtain ⟨v, h1, h2⟩ := reverse_bits c hc
  refine ⟨_, by simp only [setWinAttribute, Nat.add_sub_cancel_left, h1]; rfl, ?_⟩
  intro i hi
  rw [BitVec.getLsbD_or, BitVec.getLsbD_and, BitVec.getLsbD_or, h2]
  have : i = 0 ∨ i = 1 ∨ i = 2 ∨ i = 3 ∨ 4 ≤ i := by omega
  rcases this with rfl | rfl | rfl | rfl | h
  · simp
  · simp
  · simp
  · simp
  · have hm : (0xFFF0 : BitVec 16).getLsbD i = true ∧ (8 : BitVec 16).getLsbD i = false := by
      have : i = 4 ∨ i = 5 ∨ i = 6 ∨ i = 7 ∨ i = 8 ∨ i = 9 ∨ i = 10 ∨ i = 11 ∨ i = 12 ∨ i = 13 ∨ i = 14 ∨ i = 15 := by omega
      rcases this with rfl | rfl | rfl | rfl | rfl | rfl | rfl | rfl | rfl | rfl | rfl | rfl <;> decide
    rw [hm.1, hm.2, if_neg (by omega), if_neg (by omega), if_neg (by omega), if_neg (by omega), if_neg (by omega), if_neg (by omega), if_neg (by omega)]
    simp

/-- The bits of the background. -/
theorem mask_bg (i : Nat) (hi : i < 16) : (0xFF0F : BitVec 16).getLsbD i = !(decide (4 ≤ i) && decide (i < 8)) := by
  have : i = 0 ∨ i = 1 ∨ i = 2 ∨ i = 3 ∨ i = 4 ∨ i = 5 ∨ i = 6 ∨ i = 7 ∨ i = 8 ∨ i = 9 ∨ i = 10 ∨ i = 11 ∨ i = 12 ∨ i = 13 ∨ i = 14 ∨ i = 15 := by omega
  rcases this with rfl | rfl | rfl | rfl | rfl | rfl | rfl | rfl | rfl | rfl | rfl | rfl | rfl | rfl | rfl | rfl <;> decide

/-- **C122** (part) The same for the colours of the background. -/
theorem C122_bg (st : BitVec 16) (c : Nat) (hc : c < 8) : ∃ st', setWinAttribute (.bg (40 + c)) st = .ok st' ∧ Painted 4 false c st st' := by
  obtain ⟨v, h1, h2⟩ := reverse_bits c hc
  refine ⟨_, by simp only [setWinAttribute, Nat.add_sub_cancel_left, h1]; rfl, ?_⟩
  intro i hi
  rw [BitVec.getLsbD_or, BitVec.getLsbD_and, BitVec.getLsbD_shiftLeft, h2, mask_bg i hi]
  have : i < 4 ∨ i = 4 ∨ i = 5 ∨ i = 6 ∨ i = 7 ∨ 8 ≤ i := by omega
  rcases this with h | rfl | rfl | rfl | rfl | h
  · rw [if_neg (show i ≠ 4 by omega), if_neg (show i ≠ 4 + 1 by omega), if_neg (show i ≠ 4 + 2 by omega), if_neg (show i ≠ 4 + 3 by omega)]
    simp [h, show ¬ 4 ≤ i by omega]
  · simp
  · simp
  · simp
  · simp
  · rw [if_neg (show i ≠ 4 by omega), if_neg (show i ≠ 4 + 1 by omega), if_neg (show i ≠ 4 + 2 by omega), if_neg (show i ≠ 4 + 3 by omega), if_neg (show i - 4 ≠ 0 by omega), if_neg (show i - 4 ≠ 1 by omega), if_neg (show i - 4 ≠ 2 by omega)]
    simp [show ¬ i < 8 by omega]

/-- **C122** (part) And for its bright colours. -/
theorem C122_bgB (st : BitVec 16) (c : Nat) (hc : c < 8) : ∃ st', setWinAttribute (.bgB (100 + c)) st = .ok st' ∧ Painted 4 true c st st' := by
  obtain ⟨v, h1, h2⟩ := reverse_bits c hc
  refine ⟨_, by simp only [setWinAttribute, Nat.add_sub_cancel_left, h1]; rfl, ?_⟩
  intro i hi
  rw [BitVec.getLsbD_or, BitVec.getLsbD_and, BitVec.getLsbD_shiftLeft, BitVec.getLsbD_or, h2, mask_bg i hi]
  have : i < 4 ∨ i = 4 ∨ i = 5 ∨ i = 6 ∨ i = 7 ∨ 8 ≤ i := by omega
  rcases this with h | rfl | rfl | rfl | rfl | h
  · rw [if_neg (show i ≠ 4 by omega), if_neg (show i ≠ 4 + 1 by omega), if_neg (show i ≠ 4 + 2 by omega), if_neg (show i ≠ 4 + 3 by omega)]
    simp [h, show ¬ 4 ≤ i by omega]
  · simp
  · simp
  · simp
  · simp
  · have hm : (8 : BitVec 16).getLsbD (i - 4) = false := by
      have : i = 8 ∨ i = 9 ∨ i = 10 ∨ i = 11 ∨ i = 12 ∨ i = 13 ∨ i = 14 ∨ i = 15 := by omega
      rcases this with rfl | rfl | rfl | rfl | rfl | rfl | rfl | rfl <;> decide
    rw [hm, if_neg (show i ≠ 4 by omega), if_neg (show i ≠ 4 + 1 by omega), if_neg (show i ≠ 4 + 2 by omega), if_neg (show i ≠ 4 + 3 by omega), if_neg (show i - 4 ≠ 0 by omega), if_neg (show i - 4 ≠ 1 by omega), if_neg (show i - 4 ≠ 2 by omega)]
    simp [show ¬ i < 8 by omega]

/-- **C122** (refuted) There `fg::reset` and `bg::reset` read an array out of its bounds, whatever the attribute. -/
theorem C122_reset_refuted (st : BitVec 16) : setWinAttribute (.fg 39) st = .error (.ub .outOfRange) ∧ setWinAttribute (.bg 49) st = .error (.ub .outOfRange) := ⟨rfl, rfl⟩

/-- The attribute has no background. -/
theorem letters_only (c : BitVec 16) : ∀ a : BitVec 16, a = 7 ∨ a = 2 ∨ a = 15 → (a &&& 0xFFF0) ||| c = c := by
  intro a h
  have : a &&& 0xFFF0 = 0 := by rcases h with rfl | rfl | rfl <;> decide
  rw [this]; simp

/-- What the manipulators do on such a console. -/
theorem console_put {e : Env} {s : St} (ht : OnTerminal e s.os.buf) (hf : Fits e s.statics) (v : Value) {a : BitVec 16} (ha : setWinAttribute v s.statics.attr = .ok a) :
    ∃ s', put (.windows true) e v s = .ok s' ∧ s'.color = s.color ∧ s'.os = s.os ∧ s'.console = s.console ++ [a] ∧ Fits e s'.statics ∧ s'.statics.attr = a := by
  have htt : (isTerminal e s.os.buf Statics.init).2 = true := by
    have := (tty_iff (.windows true) e s.os.buf).2 ⟨trivial, ht⟩
    simpa [tty, supportsColor] using this
  have hset : ∀ s1 : St, s1.os = s.os → Fits e s1.statics → s1.statics.attr = s.statics.attr → s1.color = s.color → s1.console = s.console →
      ∃ s', setColor (.windows true) e v s1 = .ok s' ∧ s'.color = s.color ∧ s'.os = s.os ∧ s'.console = s.console ++ [a] ∧ Fits e s'.statics ∧ s'.statics.attr = a := by
    intro s1 ho hf1 ha1 hc1 hk1
    obtain ⟨b1, b2, b3⟩ := terminal_fits s1.os.buf hf1
    unfold setColor
    cases hi : isTerminal e s1.os.buf s1.statics with
    | mk t b =>
      rw [hi] at b1 b2 b3
      rw [ho, htt] at b1
      simp only at b1 b2 b3
      subst b1
      have : setWinAttribute v t.attr = .ok a := by rw [b3, ha1, ha]
      simp only [hi, this, bind, Except.bind]
      exact ⟨_, rfl, hc1, ho, by rw [hk1], ⟨b2.result, b2.out, b2.err, b2.log⟩, rfl⟩
  unfold put
  cases s.os.iword with
  | true => exact hset s rfl hf rfl rfl rfl
  | false =>
    obtain ⟨b1, b2, b3⟩ := terminal_fits s.os.buf hf
    simp only [supportsColor, Bool.false_eq_true, if_false]
    cases hi : isTerminal e s.os.buf s.statics with
    | mk t b =>
      rw [hi] at b1 b2 b3
      rw [htt] at b1
      simp only at b1 b2 b3
      subst b1
      exact hset { s with statics := t } rfl b2 b3 rfl rfl

/-- **C122** (part) On such a console, in an environment that does not change: a session writes no escape sequences, but the texts only; the attribute is set to green before and white after a prompt, to bright white before and white after the
    input, whether or not colours are forced. -/
theorem C122_console (e : Env) (ops : List Op) (hr : ∀ b, .redirect b ∉ ops) : ∀ s : St, OnTerminal e s.os.buf → Fits e s.statics → (s.statics.attr = 7 ∨ s.statics.attr = 2 ∨ s.statics.attr = 15) →
    ∃ s', run (.windows true) (ops.map (fun o => (e, o))) s = .ok s' ∧ s'.os.out = s.os.out ++ texts ops ∧ s'.console = s.console ++ attributes s.color ops := by
  induction ops with
  | nil => intro s _ _ _; exact ⟨s, rfl, by simp [texts], by simp [attributes]⟩
  | cons o ops ih =>
    intro s ht hf ha
    have ih := ih (fun b hb => hr b (by simp [hb]))
    have hreset : ∀ (s : St) , OnTerminal e s.os.buf → Fits e s.statics → ∃ s', (put (.windows true) e (.style 0) s >>= run (.windows true) (ops.map (fun o => (e, o)))) = .ok s' ∧ s'.os.out = s.os.out ++ texts ops ∧
        s'.console = s.console ++ 7 :: attributes s.color ops := by
      intro s ht hf
      obtain ⟨s1, p1, p2, p3, p4, p5, p6⟩ := console_put ht hf (.style 0) (a := 7) rfl
      obtain ⟨s2, q1, q2, q3⟩ := ih s1 (p3 ▸ ht) p5 (.inl p6)
      exact ⟨s2, by rw [p1]; exact q1, by rw [q2, p3], by rw [q3, p4, p2]; simp⟩
    cases o with
    | text t =>
      obtain ⟨s2, q1, q2, q3⟩ := ih { s with os := { s.os with out := s.os.out ++ t } } ht hf ha
      refine ⟨s2, q1, by rw [q2]; simp [texts], ?_⟩
      rw [q3]; cases s.color <;> simp [attributes]
    | color on =>
      obtain ⟨s2, q1, q2, q3⟩ := ih { s with color := on } ht hf ha
      exact ⟨s2, q1, by rw [q2]; simp [texts], by rw [q3]; simp [attributes]⟩
    | redirect b => exact absurd (by simp) (hr b)
    | afterPrompt =>
      obtain ⟨s2, q1, q2, q3⟩ := hreset s ht hf
      refine ⟨s2, q1, by rw [q2]; simp [texts], ?_⟩
      rw [q3]; cases s.color <;> simp [attributes]
    | afterInput =>
      obtain ⟨s2, q1, q2, q3⟩ := hreset s ht hf
      refine ⟨s2, q1, by rw [q2]; simp [texts], ?_⟩
      rw [q3]; cases s.color <;> simp [attributes]
    | beforePrompt =>
      cases hc : s.color with
      | false =>
        obtain ⟨s2, q1, q2, q3⟩ := ih s ht hf ha
        exact ⟨s2, by simp only [List.map_cons, run, step, hc, Bool.false_eq_true, if_false]; exact q1, by rw [q2]; simp [texts], by rw [q3, hc]; simp [attributes]⟩
      | true =>
        obtain ⟨s1, p1, p2, p3, p4, p5, p6⟩ := console_put (s := force s) ht hf (.fg 32) (a := 2) (congrArg Except.ok (letters_only 2 _ ha))
        obtain ⟨s2, q1, q2, q3, q4, q5, q6⟩ := console_put (s := s1) (p3 ▸ ht) p5 (.style 1) (a := 2) (congrArg Except.ok p6)
        obtain ⟨s3, r1, r2, r3⟩ := ih s2 (q3 ▸ p3 ▸ ht) q5 (.inr (.inl q6))
        refine ⟨s3, ?_, by rw [r2, q3, p3]; simp [texts, force], by rw [r3, q4, p4, q2, p2]; simp [attributes, force, hc]⟩
        simp only [List.map_cons, run, step, hc, if_true, p1, q1, bind, Except.bind]
        exact r1
    | beforeInput =>
      cases hc : s.color with
      | false =>
        obtain ⟨s2, q1, q2, q3⟩ := ih s ht hf ha
        exact ⟨s2, by simp only [List.map_cons, run, step, hc, Bool.false_eq_true, if_false]; exact q1, by rw [q2]; simp [texts], by rw [q3, hc]; simp [attributes]⟩
      | true =>
        obtain ⟨s1, p1, p2, p3, p4, p5, p6⟩ := console_put (s := force s) ht hf (.fgB 97) (a := 15) (congrArg Except.ok (letters_only 15 _ ha))
        obtain ⟨s3, r1, r2, r3⟩ := ih s1 (p3 ▸ ht) p5 (.inr (.inr p6))
        refine ⟨s3, ?_, by rw [r2, p3]; simp [texts, force], by rw [r3, p4, p2]; simp [attributes, force, hc]⟩
        simp only [List.map_cons, run, step, hc, if_true, p1, bind, Except.bind]
        exact r1

/-- **C122** (refuted) The attribute that the console had before is not restored: it is white on black after the first prompt, with or without colours, whatever it was. -/
theorem C122_restore_refuted (e : Env) (buf : Nat) (ht : OnTerminal e buf) (color : Bool) (before : BitVec 16) (hb : before ≠ 7) :
    ∃ s, run (.windows true) [(e, .beforePrompt), (e, .text bs!"cli> "), (e, .afterPrompt)] ⟨color, Statics.init, ⟨buf, false, []⟩, []⟩ = .ok s ∧ s.console.getLastD before ≠ before := by
  obtain ⟨s, h1, _, h3⟩ := C122_console e [.beforePrompt, .text bs!"cli> ", .afterPrompt] (by simp) ⟨color, Statics.init, ⟨buf, false, []⟩, []⟩ ht (fits_init e) (.inl rfl)
  refine ⟨s, h1, ?_⟩
  rw [h3]
  cases color <;> simpa [attributes] using fun h => hb h.symm

/-- **C122** As long as no colour has been chosen, a style makes the letters white on black, with or without `forceColor`. -/
theorem C122_first (e : Env) (buf : Nat) (ht : OnTerminal e buf) (color forced : Bool) (out : Str) (con : List (BitVec 16)) (n : Nat) (hn : n ≠ 0) :
    ∃ s, put (.windows true) e (.style n) ⟨color, Statics.init, ⟨buf, forced, out⟩, con⟩ = .ok s ∧ s.os.out = out ∧ s.console = con ++ [7] := by
  have hw : setWinAttribute (.style n) Statics.init.attr = .ok 7 := by
    cases n with
    | zero => exact absurd rfl hn
    | succ n => rfl
  obtain ⟨s, h1, _, h3, h4, _⟩ := console_put (s := ⟨color, Statics.init, ⟨buf, forced, out⟩, con⟩) ht (fits_init e) (.style n) hw
  exact ⟨s, h1, by rw [h3], h4⟩

/-- **C122** (refuted) Here, too, which buffer is that of the console is decided once: a stream whose colours are forced, that gets the buffer of the console when `std::cout` has got another one, sets attributes of the console if it has had a prompt
    before, and otherwise it writes escape sequences to the console, which does not understand them. -/
theorem C122_redirect_refuted :
    (∃ s, run (.windows true) [(xterm, .color true), (xterm, .beforePrompt), ({ xterm with cout := 9 }, .redirect 1), ({ xterm with cout := 9 }, .beforeInput)] ⟨false, Statics.init, ⟨5, true, []⟩, []⟩ = .ok s ∧
        s.console = [15]) ∧
    (∃ s, run (.windows true) [(xterm, .color true), ({ xterm with cout := 9 }, .redirect 1), ({ xterm with cout := 9 }, .beforeInput)] ⟨false, Statics.init, ⟨5, true, []⟩, []⟩ = .ok s ∧
        s.console = [] ∧ s.os.out = bs!"\x1b[97m") :=
  ⟨⟨_, rfl, by decide +kernel⟩, ⟨_, rfl, by decide +kernel, by decide +kernel⟩⟩

/-! Cases: green letters on a blue background, and a prompt with colours. -/

example : setWinAttribute (.fg 32) 0x17 = .ok 0x12 ∧ setWinAttribute (.bgB 104) 0x12 = .ok 0x92 := ⟨rfl, rfl⟩

example : ∃ s, run (.windows true) [(xterm, .color true), (xterm, .beforePrompt), (xterm, .text bs!"cli> "), (xterm, .afterPrompt), (xterm, .beforeInput)] ⟨false, Statics.init, ⟨1, false, []⟩, []⟩ = .ok s ∧ s.os.out = bs!"cli> " ∧
    s.console = [2, 2, 7, 15] := ⟨_, rfl, rfl, rfl⟩

end Verif.Rang
