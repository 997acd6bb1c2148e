import Verif.Model.AsyncProgram
import Verif.Props.Script
import Verif.Props.AsyncSession

/-!
# C111: what the example program with an asynchronous session writes, and when it ends
-/

set_option linter.unusedSimpArgs false

namespace Verif.Script
open Spec Props
open Async (St Ev)
open FileSession (cut)

/-! ### Specification -/

/-- What has been written after these lines, none of which is `exit`. -/
inductive Talk : Seat → List Str → Seat → Str → Prop
  | nil {s} : Talk s [] s []
  | line {s s' s'' l ls t o} : ¬ Lex.Line l [bs!"exit"] → Line s.prompted l s' t → Talk s' ls s'' o → Talk s (l :: ls) s'' (s.prompt ++ t ++ o)

/-- What has been written after these lines, and whether the program has ended. -/
inductive Told (s : Seat) : List Str → Str → Bool → Prop
  | waits {s' ls o} : Talk s ls s' o → Told s ls (o ++ s'.prompt) false
  | exit {s' ls l o} : Talk s ls s' o → Lex.Line l [bs!"exit"] → Told s (ls ++ [l]) (o ++ s'.prompt ++ bs!"Closing App...\n" ++ goodbye) true

/-- What has been typed. -/
def typed (es : List Ev) : Str := es.flatMap (fun | .data t => t | _ => [])

/-- The user does nothing to the session itself: it is destroyed by `main` only. -/
def Undisturbed (es : List Ev) : Prop := .destroy ∉ es

/-! ### Proofs -/

theorem talk_snoc {s s1 s2 : Seat} {ls : List Str} {l o t : Str} (h : Talk s ls s1 o) (hn : ¬ Lex.Line l [bs!"exit"]) (hl : Line s1.prompted l s2 t) : Talk s (ls ++ [l]) s2 (o ++ s1.prompt ++ t) := by
  induction h with
  | nil => simpa using Talk.line hn hl .nil
  | line h1 h2 _ ih => simpa using Talk.line h1 h2 (ih hl)

theorem talk_unique {s s1 s2 : Seat} {ls : List Str} {a b : Str} (h1 : Talk s ls s1 a) (h2 : Talk s ls s2 b) : s1 = s2 ∧ a = b := by
  induction h1 generalizing s2 b with
  | nil => cases h2; exact ⟨rfl, rfl⟩
  | line _ hl _ ih =>
    cases h2 with
    | line _ hl' ht =>
      obtain ⟨rfl, rfl⟩ := line_unique hl hl'
      obtain ⟨rfl, rfl⟩ := ih ht
      exact ⟨rfl, rfl⟩

theorem talk_no_exit {s s' : Seat} {ls : List Str} {o : Str} (h : Talk s ls s' o) : ∀ l ∈ ls, ¬ Lex.Line l [bs!"exit"] := by
  induction h with
  | nil => simp
  | line h1 _ _ ih =>
    intro l hl
    rcases List.mem_cons.1 hl with rfl | hl
    · exact h1
    · exact ih l hl

theorem told_unique {s : Seat} {ls : List Str} {a b : Str} {x y : Bool} (h1 : Told s ls a x) (h2 : Told s ls b y) : a = b ∧ x = y := by
  cases h1 with
  | waits t1 =>
    cases h2 with
    | waits t2 => obtain ⟨rfl, rfl⟩ := talk_unique t1 t2; exact ⟨rfl, rfl⟩
    | exit t2 hx => exact absurd hx (talk_no_exit t1 _ (by simp))
  | @exit s1 l1 x1 o1 t1 hx =>
    generalize hL : l1 ++ [x1] = L at h2
    cases h2 with
    | waits t2 => exact absurd hx (talk_no_exit t2 _ (by rw [← hL]; simp))
    | exit t2 hx2 =>
      obtain ⟨rfl, h⟩ := List.append_inj' hL rfl
      cases h
      obtain ⟨rfl, rfl⟩ := talk_unique t1 t2; exact ⟨rfl, rfl⟩

theorem cut_eq : ∀ {s l r : Str}, cut s = some (l, r) → s = l ++ b%'\n' :: r ∧ b%'\n' ∉ l
  | [], _, _, h => by cases h
  | c :: s, l, r, h => by
    simp only [cut] at h
    split at h
    · rename_i hc
      cases h; subst hc; exact ⟨rfl, by simp⟩
    · rename_i hc
      cases hs : cut s with
      | none => rw [hs] at h; cases h
      | some x =>
        obtain ⟨a, b⟩ := x
        rw [hs] at h; cases h
        obtain ⟨rfl, h2⟩ := cut_eq hs
        exact ⟨rfl, by simp only [List.mem_cons, not_or]; exact ⟨fun e => hc e.symm, h2⟩⟩

theorem doomed_snoc : ∀ {ls : List Str} {l : Str}, Doomed (ls ++ [l]) ↔ Doomed ls ∨ ((∀ x ∈ ls, Lex.Line x []) ∧ Bang l)
  | [], l => by
    have hd : ¬ Doomed [] := by rintro ⟨bl, x, r, he, _⟩; simp at he
    simp only [List.nil_append, doomed_cons, hd]
    simp
  | x :: ls, l => by
    rw [List.cons_append, doomed_cons, doomed_snoc, doomed_cons]
    simp only [List.mem_cons, forall_eq_or_imp]
    constructor
    · rintro (h | ⟨h, h1 | ⟨h1, h2⟩⟩)
      · exact .inl (.inl h)
      · exact .inl (.inr ⟨h, h1⟩)
      · exact .inr ⟨⟨h, h1⟩, h2⟩
    · rintro ((h | ⟨h, h1⟩) | ⟨⟨h, h1⟩, h2⟩)
      · exact .inl h
      · exact .inr ⟨h, .inl h1⟩
      · exact .inr ⟨h, .inr ⟨h1, h2⟩⟩

/-- What holds of every state of the program. -/
structure Good (tty : Bool) (s : AsyncSt) : Prop where
  told : Told (Seat.start tty) s.fed s.w.io.out (ended s)
  got : s.got = s.fed.flatMap (fun l => l ++ [b%'\n']) ++ s.buf
  lines : ∀ l ∈ s.fed, b%'\n' ∉ l
  doomed : ¬ Doomed s.fed

/-- … while it waits. -/
structure Waiting (tty : Bool) (s : AsyncSt) (seat : Seat) (o : Str) : Prop where
  at_ : At seat.prompted s.w
  talk : Talk (Seat.start tty) s.fed seat o
  out : s.w.io.out = o ++ seat.prompt
  got : s.got = s.fed.flatMap (fun l => l ++ [b%'\n']) ++ s.buf
  lines : ∀ l ∈ s.fed, b%'\n' ∉ l
  doomed : ¬ Doomed s.fed
  live : s.live = true
  nobang : ∀ x, seat.last = some x → ¬ Bang x
  fresh : seat.Fresh ↔ ∀ l ∈ s.fed, Lex.Line l []

theorem Waiting.good {tty : Bool} {s : AsyncSt} {seat : Seat} {o : Str} (h : Waiting tty s seat o) : Good tty s ∧ ended s = false := by
  have he : ended s = false := by simp [ended, h.at_.app]
  refine ⟨⟨?_, h.got, h.lines, h.doomed⟩, he⟩
  rw [he, h.out]
  exact .waits h.talk

abbrev closing : Option Str := some bs!"Closing App...\n"

theorem line_fresh {s s' : Seat} {l t : Str} (h : Line s l s' t) : s.Fresh → Lex.Line l [] → s'.Fresh := by
  intro hx hbl
  cases h with
  | blank _ => exact hx
  | help h2 => cases line_same hbl h2
  | history h2 => cases line_same hbl h2
  | missing h2 => obtain ⟨a, n, h2, _⟩ := h2; cases line_same hbl h2
  | does h2 h3 => cases line_same hbl h2; exact absurd h3 does_nil
  | wrong h2 h3 => cases line_same hbl h2; simp at h3

/-- One event. -/
theorem step_says (p : Platform) (tty : Bool) (fuel : Nat) {s : AsyncSt} {seat : Seat} {o : Str} (h : Waiting tty s seat o) (hh : Harmless p s.buf) (e : Ev) (he : e ≠ .destroy) :
    (∃ s' seat' o', Async.step (asyncApp p) (fuel + 1) s e = .ok (s', none) ∧ Waiting tty s' seat' o' ∧ (∀ c ∈ s'.buf, c ∈ s.buf ∨ c ∈ typed [e])) ∨
    (∃ s', Async.step (asyncApp p) (fuel + 1) s e = .ok (s', none) ∧ Good tty s' ∧ ended s' = true) ∨
    (e = .line ∧ (∃ l r, s.buf = l ++ b%'\n' :: r ∧ b%'\n' ∉ l ∧ Doomed (s.fed ++ [l])) ∧ Async.step (asyncApp p) (fuel + 1) s e = .error (.ub .outOfRange)) := by
  have same : Waiting tty s seat o ∧ (∀ c ∈ s.buf, c ∈ s.buf ∨ c ∈ typed [e]) := ⟨h, fun c hc => .inl hc⟩
  cases e with
  | destroy => exact absurd rfl he
  | data t =>
    left
    simp only [Async.step]
    split
    · refine ⟨_, seat, o, rfl, ⟨h.at_, h.talk, h.out, ?_, h.lines, h.doomed, h.live, h.nobang, h.fresh⟩, fun c hc => ?_⟩
      · show s.got ++ t = _
        rw [h.got, List.append_assoc]
      · rcases List.mem_append.1 hc with hc | hc
        · exact .inl hc
        · exact .inr (by simpa [typed] using hc)
    · exact ⟨_, seat, o, rfl, same⟩
  | fail =>
    left
    simp only [Async.step, h.live, if_true]
    split
    · exact ⟨_, seat, o, rfl, ⟨h.at_, h.talk, h.out, h.got, h.lines, h.doomed, rfl, h.nobang, h.fresh⟩, fun c hc => .inl hc⟩
    · exact ⟨_, seat, o, rfl, same⟩
  | line =>
    simp only [Async.step]
    by_cases hr : s.reading = true
    · rw [if_pos hr]
      cases hc : cut s.buf with
      | none => exact .inl ⟨_, seat, o, rfl, same⟩
      | some x =>
        obtain ⟨l, r⟩ := x
        obtain ⟨hbuf, hln⟩ := cut_eq hc
        simp only [h.live, if_true]
        have hhl : Harmless p l := fun c hc => hh c (by rw [hbuf]; simp [hc])
        have hgot : s.got = (s.fed ++ [l]).flatMap (fun l => l ++ [b%'\n']) ++ r := by rw [h.got, hbuf]; simp
        have hlines : ∀ x ∈ s.fed ++ [l], b%'\n' ∉ x := by
          intro x hx
          rcases List.mem_append.1 hx with hx | hx
          · exact h.lines x hx
          · simp at hx; subst hx; exact hln
        have hfr : seat.prompted.Fresh ↔ seat.Fresh := Iff.rfl
        have hA : asyncApp p = A p closing := rfl
        rw [hA]
        rcases line_step p closing fuel h.at_ hhl with ⟨w2, e1, e2, e3, e4, e5⟩ | ⟨e1, e2, e3⟩ | ⟨w2, s', t, e1, e2, e3, e4, e5, e6⟩
        · right; left
          rw [e2]
          refine ⟨⟨w2, r, true, true, s.got, s.fed ++ [l]⟩, by simp only [Async.read, prompt, e5, if_true], ⟨?_, hgot, hlines, ?_⟩, e4⟩
          · have : ended ⟨w2, r, true, true, s.got, s.fed ++ [l]⟩ = true := e4
            rw [this]
            show Told _ (s.fed ++ [l]) w2.io.out true
            rw [e3, h.out]
            exact .exit h.talk e1
          · show ¬ Doomed (s.fed ++ [l])
            rw [doomed_snoc]
            rintro (hd | ⟨_, a, n, h2, _⟩)
            · exact h.doomed hd
            · cases line_same e1 h2
        · right; right
          refine ⟨trivial, ⟨l, r, hbuf, hln, ?_⟩, by rw [e3]⟩
          rw [doomed_snoc]
          refine .inr ⟨h.fresh.1 ?_, e1⟩
          cases hl : seat.last with
          | none =>
            have : (seat.prompted.record l).number = seat.number := by simp [Seat.record, Seat.prompted, hl]
            exact ⟨hl, by rw [← this]; exact e2⟩
          | some y =>
            exfalso
            by_cases hy : y = l
            · subst hy; exact h.nobang y hl e1
            · have : (seat.prompted.record l).number = seat.number + 1 := by simp [Seat.record, Seat.prompted, hl, hy]
              omega
        · left
          rw [e3]
          obtain ⟨n1, n2⟩ := line_next e4 e2 h.nobang
          obtain ⟨w3, p1, p2, p3⟩ := prompt_says e5
          refine ⟨⟨w3, r, true, true, s.got, s.fed ++ [l]⟩, s', o ++ seat.prompt ++ t, by simp only [Async.read, p1], ⟨p2, talk_snoc h.talk e1 e4, ?_, hgot, hlines, ?_, rfl, n1, ?_⟩, fun c hc => .inl (by rw [hbuf]; simp [show c ∈ r from hc])⟩
          · show w3.io.out = _
            rw [p3, e6, h.out]
          · show ¬ Doomed (s.fed ++ [l])
            rw [doomed_snoc]
            rintro (hd | ⟨h1, h2⟩)
            · exact h.doomed hd
            · obtain ⟨f1, f2⟩ := h.fresh.2 h1
              apply e2 h2
              simp [Seat.record, Seat.prompted, f1, f2]
          · show s'.Fresh ↔ ∀ x ∈ s.fed ++ [l], Lex.Line x []
            constructor
            · intro hf
              obtain ⟨a, b⟩ := n2 hf
              intro x hx
              rcases List.mem_append.1 hx with hx | hx
              · exact h.fresh.1 a x hx
              · simp at hx; subst hx; exact b
            · intro hall
              exact line_fresh e4 (h.fresh.2 (fun x hx => hall x (by simp [hx]))) (hall l (by simp))
    · rw [if_neg hr]
      exact .inl ⟨_, seat, o, rfl, same⟩

theorem run_ended {p : Platform} {fuel : Nat} {s : AsyncSt} (h : ended s = true) : ∀ es, asyncRun p fuel es s = .ok (s, none)
  | [] => rfl
  | e :: es => by rw [asyncRun, if_pos h]

theorem typed_cons (e : Ev) (es : List Ev) : typed (e :: es) = typed [e] ++ typed es := by simp [typed]

theorem run_says (p : Platform) (tty : Bool) (fuel : Nat) : ∀ (es : List Ev) {s : AsyncSt} {seat : Seat} {o : Str}, Waiting tty s seat o → Undisturbed es → Harmless p s.buf → Harmless p (typed es) →
    (∃ s', asyncRun p (fuel + 1) es s = .ok (s', none) ∧ Good tty s' ∧ (ended s' = false → ∃ seat' o', Waiting tty s' seat' o' ∧ Harmless p s'.buf)) ∨
    (∃ es1 es2 s1 l r, es = es1 ++ .line :: es2 ∧ asyncRun p (fuel + 1) es1 s = .ok (s1, none) ∧ s1.buf = l ++ b%'\n' :: r ∧ b%'\n' ∉ l ∧ Doomed (s1.fed ++ [l]) ∧ asyncRun p (fuel + 1) es s = .error (.ub .outOfRange))
  | [], s, seat, o, h, _, hh, _ => .inl ⟨s, rfl, h.good.1, fun _ => ⟨seat, o, h, hh⟩⟩
  | e :: es, s, seat, o, h, hu, hh, ht => by
    have hne : e ≠ .destroy := fun he => hu (by simp [he])
    have hu' : Undisturbed es := fun hm => hu (by simp [hm])
    rw [typed_cons] at ht
    have h0 : ended s = false := h.good.2
    rcases step_says p tty fuel h hh e hne with ⟨s', seat', o', e1, e2, e3⟩ | ⟨s', e1, e2, e3⟩ | ⟨rfl, ⟨l, r, e1, e0, e2⟩, e3⟩
    · have hb : Harmless p s'.buf := by
        intro c hc
        rcases e3 c hc with hc | hc
        · exact hh c hc
        · exact ht c (by simp [hc])
      have hs : ∀ es, asyncRun p (fuel + 1) (e :: es) s = asyncRun p (fuel + 1) es s' := by intro es; simp only [asyncRun, h0, Bool.false_eq_true, if_false, e1]
      rcases run_says p tty fuel es e2 hu' hb (fun c hc => ht c (by simp [hc])) with ⟨s2, f1, f2, f3⟩ | ⟨es1, es2, s1, l, r, rfl, f2, f3, f30, f4, f5⟩
      · exact .inl ⟨s2, by rw [hs, f1], f2, f3⟩
      · exact .inr ⟨e :: es1, es2, s1, l, r, rfl, by rw [hs, f2], f3, f30, f4, by rw [hs, f5]⟩
    · refine .inl ⟨s', ?_, e2, fun hf => by rw [e3] at hf; cases hf⟩
      simp only [asyncRun, h0, Bool.false_eq_true, if_false, e1]
      exact run_ended e3 es
    · refine .inr ⟨[], es, s, l, r, rfl, rfl, e1, e0, e2, ?_⟩
      simp only [asyncRun, h0, Bool.false_eq_true, if_false, e3]

theorem start_says (p : Platform) (tty : Bool) : ∃ s, asyncStart p tty = .ok s ∧ Waiting tty s (Seat.start tty) [] ∧ s.buf = [] ∧ s.reading = true := by
  have hat : At (Seat.start tty) (newSession (asyncApp p) 1 (asyncCli tty) (asyncCli tty).io) := ⟨rfl, fun _ => rfl, rfl, rfl, rfl, rfl, by cases tty <;> rfl, rfl, rfl, rfl, rfl, rfl⟩
  obtain ⟨w, p1, p2, p3⟩ := prompt_says hat
  refine ⟨⟨w, [], true, true, [], []⟩, by simp only [asyncStart, Async.create, Async.read, p1], ⟨p2, .nil, ?_, rfl, by simp, ?_, rfl, fun x hx => (by cases hx), ?_⟩, rfl, rfl⟩
  · show w.io.out = _
    rw [p3]; rfl
  · rintro ⟨bl, x, r, he, _⟩; simp at he
  · exact ⟨fun _ => by simp, fun _ => ⟨rfl, rfl⟩⟩

theorem run_append {p : Platform} {fuel : Nat} : ∀ {a b : List Ev} {s s' : AsyncSt}, asyncRun p fuel a s = .ok (s', none) → asyncRun p fuel (a ++ b) s = asyncRun p fuel b s'
  | [], b, s, s', h => by cases h; rfl
  | e :: a, b, s, s', h => by
    rw [List.cons_append, asyncRun]
    rw [asyncRun] at h
    split
    · rename_i he
      rw [if_pos he] at h; cases h
      rw [run_ended he]
    · rename_i he
      rw [if_neg he] at h
      split at h
      · cases h
      · cases h
      · rename_i s1 h1
        exact run_append h

theorem main_append {p : Platform} {tty : Bool} {fuel : Nat} {a b : List Ev} {s : AsyncSt} (h : asyncMain p tty fuel a = .ok (s, none)) : asyncMain p tty fuel (a ++ b) = asyncRun p fuel b s := by
  obtain ⟨s0, h0, _⟩ := start_says p tty
  unfold asyncMain at *
  rw [h0] at h ⊢
  exact run_append h

theorem main_says (p : Platform) (tty : Bool) (fuel : Nat) (es : List Ev) (hu : Undisturbed es) (hh : Harmless p (typed es)) :
    (∃ s, asyncMain p tty (fuel + 1) es = .ok (s, none) ∧ Good tty s ∧ (ended s = false → ∃ seat o, Waiting tty s seat o ∧ Harmless p s.buf)) ∨
    (∃ es1 es2 s l r, es = es1 ++ .line :: es2 ∧ asyncMain p tty (fuel + 1) es1 = .ok (s, none) ∧ s.buf = l ++ b%'\n' :: r ∧ b%'\n' ∉ l ∧ Doomed (s.fed ++ [l]) ∧ asyncMain p tty (fuel + 1) es = .error (.ub .outOfRange)) := by
  obtain ⟨s0, h0, h1, h2, _⟩ := start_says p tty
  have := run_says p tty fuel es h1 hu (by rw [h2]; intro c hc; cases hc) hh
  simpa only [asyncMain, h0] using this

theorem line_took {A : App (Unit × Bool) Storage.Volatile} {fuel : Nat} {s s' : AsyncSt} {l r : Str} (hr : s.reading = true) (hl : s.live = true) (hc : cut s.buf = some (l, r)) (h : Async.step A fuel s .line = .ok (s', none)) :
    s'.fed = s.fed ++ [l] ∧ s'.buf = r ∧ s'.reading = true ∧ s'.got = s.got := by
  simp only [Async.step, hr, if_true, hc, hl] at h
  split at h
  · cases h
  · cases h
  · split at h
    · cases h
    · rename_i h1
      cases h
      obtain ⟨w, _, rfl⟩ := read_ok h1
      exact ⟨rfl, rfl, rfl, rfl⟩

theorem serves (p : Platform) (tty : Bool) (fuel : Nat) {ls : List Str} {rest : Str} (hx : ¬ Doomed ls) : ∀ (k : Nat) {s : AsyncSt} {seat : Seat} {o : Str}, s.buf.length ≤ k → Waiting tty s seat o → s.reading = true → Harmless p s.buf → Lines s.got ls rest →
    ∃ n s', asyncRun p (fuel + 1) (List.replicate n .line) s = .ok (s', none) ∧ ((ended s' = false ∧ s'.fed = ls ∧ s'.buf = rest) ∨ (ended s' = true ∧ ∃ a x b, ls = a ++ x :: b ∧ Lex.Line x [bs!"exit"] ∧ s'.fed = a ++ [x])) := by
  intro k
  induction k with
  | zero =>
    intro s seat o hk hw hr hh hl
    have hb : s.buf = [] := List.length_eq_zero_iff.1 (by omega)
    obtain ⟨rfl, rfl⟩ := lines_unique hl ⟨hw.got, hw.lines, by simp [hb]⟩
    exact ⟨0, s, rfl, .inl ⟨hw.good.2, rfl, rfl⟩⟩
  | succ k ih =>
    intro s seat o hk hw hr hh hl
    cases hc : cut s.buf with
    | none =>
      obtain ⟨rfl, rfl⟩ := lines_unique hl ⟨hw.got, hw.lines, cut_none_iff.1 hc⟩
      exact ⟨0, s, rfl, .inl ⟨hw.good.2, rfl, rfl⟩⟩
    | some q =>
      obtain ⟨l, r⟩ := q
      obtain ⟨hbuf, hln⟩ := cut_eq hc
      obtain ⟨more, rest', hm⟩ := lines_total r
      have hls : ls = s.fed ++ l :: more := by
        refine (lines_unique hl ⟨(?_ : s.got = (s.fed ++ l :: more).flatMap (fun l => l ++ [b%'\n']) ++ rest'), ?_, hm.rest⟩).1
        · rw [hw.got, hbuf, hm.text]; simp
        · intro x hx
          simp only [List.mem_append, List.mem_cons] at hx
          rcases hx with hx | rfl | hx
          · exact hw.lines x hx
          · exact hln
          · exact hm.lines x hx
      have h0 : ended s = false := hw.good.2
      rcases step_says p tty fuel hw hh .line (by simp) with ⟨s', seat', o', e1, e2, e3⟩ | ⟨s', e1, e2, e3⟩ | ⟨_, ⟨l', r', e1, hn, e2⟩, e3⟩
      · obtain ⟨t1, t2, t3, t4⟩ := line_took hr hw.live hc e1
        have hh' : Harmless p s'.buf := by
          intro c hc
          rw [t2] at hc
          exact hh c (by rw [hbuf]; simp [hc])
        obtain ⟨n, s2, f1, f2⟩ := ih (by rw [t2]; have := cut_length hc; omega) e2 t3 hh' (by rw [t4]; exact hl)
        refine ⟨n + 1, s2, ?_, f2⟩
        simp only [List.replicate_succ, asyncRun, h0, Bool.false_eq_true, if_false, e1]
        exact f1
      · obtain ⟨t1, t2, t3, t4⟩ := line_took hr hw.live hc e1
        refine ⟨1, s', ?_, .inr ⟨e3, s.fed, l, more, hls, ?_, t1⟩⟩
        · simp only [List.replicate, asyncRun, h0, Bool.false_eq_true, if_false, e1]
        · have ht := e2.told
          rw [e3, t1] at ht
          generalize hL : s.fed ++ [l] = L at ht
          generalize s'.w.io.out = q at ht
          cases ht with
          | exit _ hx =>
            obtain ⟨_, h⟩ := List.append_inj' hL rfl
            cases h
            exact hx
      · exfalso
        have : l' = l := by
          have hc' := hc
          rw [e1, cut_some hn] at hc'
          cases hc'; rfl
        subst this
        apply hx
        rw [hls]
        obtain ⟨bl, y, q, g1, g2, g3⟩ := e2
        refine ⟨bl, y, q ++ more, ?_, g2, g3⟩
        rw [show s.fed ++ l' :: more = (s.fed ++ [l']) ++ more by simp, g1]
        simp

/-! ### C111 -/

/-- **C111** (partial) What has been written is what the table of commands says about the lines handled so far, which are the first ones of what has been typed; the program has ended if the last of them is `exit`, having said so, and not before. Missing:
    the behaviour is undefined if the first line that is not blank is `!` and a number (the second case, which really happens), or if it is for the conversion of an argument. -/
theorem C111_output_partial (p : Platform) (tty : Bool) (fuel : Nat) (es : List Ev) (hu : Undisturbed es) (hh : Harmless p (typed es)) :
    (∃ s, asyncMain p tty (fuel + 1) es = .ok (s, none) ∧ Told (Seat.start tty) s.fed s.w.io.out (ended s) ∧ s.got = s.fed.flatMap (fun l => l ++ [b%'\n']) ++ s.buf ∧ (∀ l ∈ s.fed, b%'\n' ∉ l)) ∨
    (∃ es1 es2 s l r, es = es1 ++ .line :: es2 ∧ asyncMain p tty (fuel + 1) es1 = .ok (s, none) ∧ s.buf = l ++ b%'\n' :: r ∧ b%'\n' ∉ l ∧ Doomed (s.fed ++ [l]) ∧ asyncMain p tty (fuel + 1) es = .error (.ub .outOfRange)) := by
  rcases main_says p tty fuel es hu hh with ⟨s, h1, h2, _⟩ | h
  · exact .inl ⟨s, h1, h2.told, h2.got, h2.lines⟩
  · exact .inr h

/-- **C111** There is one output only for given lines. -/
theorem C111_unique {s : Seat} {ls : List Str} {a b : Str} {x y : Bool} (h1 : Told s ls a x) (h2 : Told s ls b y) : a = b ∧ x = y := told_unique h1 h2

/-- **C111** Until the end of the input is noticed the session reads. -/
theorem C111_reads (p : Platform) (tty : Bool) (fuel : Nat) (es : List Ev) (hu : Undisturbed es) (hf : .fail ∉ es) (s : AsyncSt) (h : asyncMain p tty fuel es = .ok (s, none)) : s.reading = true := by
  obtain ⟨s0, h0, h1, _, h2⟩ := start_says p tty
  simp only [asyncMain, h0] at h
  have gen : ∀ (es : List Ev) (s0 : AsyncSt), Undisturbed es → .fail ∉ es → s0.live = true → s0.reading = true → asyncRun p fuel es s0 = .ok (s, none) → s.reading = true := by
    intro es
    induction es with
    | nil => intro s0 _ _ _ hr h; cases h; exact hr
    | cons e es ih =>
      intro s0 hu hf hl hr h
      have hu' : Undisturbed es := fun hm => hu (by simp [hm])
      have hf' : .fail ∉ es := fun hm => hf (by simp [hm])
      rw [asyncRun] at h
      split at h
      · cases h; exact hr
      · split at h
        · cases h
        · cases h
        · rename_i s1 h1
          have hstep : s1.live = true ∧ s1.reading = true := by
            cases e with
            | destroy => exact absurd (by simp) hu
            | fail => exact absurd (by simp) hf
            | data t =>
              simp only [Async.step] at h1
              split at h1 <;> cases h1 <;> exact ⟨hl, hr⟩
            | line =>
              cases hc : cut s0.buf with
              | none => simp only [Async.step, hr, if_true, hc] at h1; cases h1; exact ⟨hl, hr⟩
              | some q =>
                refine ⟨?_, (line_took hr hl hc h1).2.2.1⟩
                simp only [Async.step, hr, if_true, hc, hl] at h1
                split at h1
                · cases h1
                · cases h1
                · split at h1
                  · cases h1
                  · rename_i h2; cases h1; obtain ⟨w, _, rfl⟩ := read_ok h2; rfl
          exact ih s1 hu' hf' hstep.1 hstep.2 h
  exact gen es s0 hu hf h1.live h2 h

/-- **C111** (partial) Every line typed is handled in the end, up to the first `exit`: if the handlers that can be called are called, either all lines have been handled and the session waits for more, or the program has ended with the first line `exit`. What
    follows this line is not executed. -/
theorem C111_serves_partial (p : Platform) (tty : Bool) (fuel : Nat) (es : List Ev) (hu : Undisturbed es) (hf : .fail ∉ es) (hh : Harmless p (typed es)) (s : AsyncSt) (h : asyncMain p tty (fuel + 1) es = .ok (s, none)) (he : ended s = false)
    {ls : List Str} {rest : Str} (hl : Lines s.got ls rest) (hx : ¬ Doomed ls) :
    ∃ n s', asyncMain p tty (fuel + 1) (es ++ List.replicate n .line) = .ok (s', none) ∧
      ((ended s' = false ∧ s'.fed = ls ∧ s'.buf = rest) ∨ (ended s' = true ∧ ∃ a x b, ls = a ++ x :: b ∧ Lex.Line x [bs!"exit"] ∧ s'.fed = a ++ [x])) := by
  rcases main_says p tty fuel es hu hh with ⟨s1, h1, h2, h3⟩ | ⟨_, _, _, _, _, _, _, _, _, _, h1⟩
  · rw [h1] at h; cases h
    obtain ⟨seat, o, hw, hb⟩ := h3 he
    obtain ⟨n, s', g1, g2⟩ := serves p tty fuel hx s.buf.length (Nat.le_refl _) hw (C111_reads p tty (fuel + 1) es hu hf s h1) hb hl
    exact ⟨n, s', by rw [main_append h1]; exact g1, g2⟩
  · rw [h1] at h; cases h

/-- **C111** (refuted, in general) If the first line that is not blank is `!` and a number, handling it has undefined behaviour. -/
theorem C111_first_refuted (p : Platform) (tty : Bool) (fuel : Nat) (es : List Ev) (hu : Undisturbed es) (hf : .fail ∉ es) (hh : Harmless p (typed es)) (s : AsyncSt) (h : asyncMain p tty (fuel + 1) es = .ok (s, none)) (he : ended s = false)
    {l r : Str} (hb : s.buf = l ++ b%'\n' :: r) (hl : b%'\n' ∉ l) (hx : Doomed (s.fed ++ [l])) :
    asyncMain p tty (fuel + 1) (es ++ [.line]) = .error (.ub .outOfRange) := by
  have hr := C111_reads p tty (fuel + 1) es hu hf s h
  rcases main_says p tty fuel es hu hh with ⟨s1, h1, h2, h3⟩ | ⟨_, _, _, _, _, _, _, _, _, _, h1⟩
  · rw [h1] at h; cases h
    obtain ⟨seat, o, hw, hhb⟩ := h3 he
    have hc : cut s.buf = some (l, r) := by rw [hb]; exact cut_some hl r
    rw [main_append h1]
    rcases step_says p tty fuel hw hhb .line (by simp) with ⟨s', seat', o', e1, e2, e3⟩ | ⟨s', e1, e2, e3⟩ | ⟨_, _, e3⟩
    · exact absurd (by rw [(line_took hr hw.live hc e1).1]; exact hx) e2.doomed
    · exact absurd (by rw [(line_took hr hw.live hc e1).1]; exact hx) e2.doomed
    · simp only [asyncRun, he, Bool.false_eq_true, if_false, e3]
  · rw [h1] at h; cases h

/-- **C111** When the program has ended nothing more happens. -/
theorem C111_ended (p : Platform) (tty : Bool) (fuel : Nat) (es es' : List Ev) (s : AsyncSt) (h : asyncMain p tty fuel es = .ok (s, none)) (he : ended s = true) : asyncMain p tty fuel (es ++ es') = .ok (s, none) := by
  rw [main_append h, run_ended he]

/-- **C111** (refuted) The end of the input does not end the program: it waits for ever, whatever happens, and `Goodbye` is never written. -/
theorem C111_eof_refuted (p : Platform) (tty : Bool) (fuel : Nat) (es : List Ev) (s : AsyncSt) (h : asyncMain p tty fuel es = .ok (s, none)) (he : ended s = false) (hl : s.live = true) (hr : s.reading = true) (hb : b%'\n' ∉ s.buf) (es' : List Ev) (hu : Undisturbed es') :
    ∃ s', asyncMain p tty fuel (es ++ .fail :: es') = .ok (s', none) ∧ ended s' = false ∧ s'.w.io.out = s.w.io.out ∧ s'.fed = s.fed := by
  rw [main_append h]
  have hstep : Async.step (asyncApp p) fuel s .fail = .ok ({ s with reading := false }, none) := by
    simp only [Async.step, hr, cut_none_iff.2 hb, hl, true_or, and_self, if_true]
  have gen : ∀ es' : List Ev, Undisturbed es' → asyncRun p fuel es' { s with reading := false } = .ok ({ s with reading := false }, none) := by
    intro es'
    induction es' with
    | nil => intro _; rfl
    | cons e es' ih =>
      intro hu
      rw [asyncRun, if_neg (by show ¬ (ended s = true); rw [he]; simp)]
      have : Async.step (asyncApp p) fuel { s with reading := false } e = .ok ({ s with reading := false }, none) := by
        cases e with
        | destroy => exact absurd (by simp) hu
        | _ => simp [Async.step]
      rw [this]
      exact ih (fun hm => hu (by simp [hm]))
  refine ⟨{ s with reading := false }, ?_, he, rfl, rfl⟩
  rw [asyncRun, if_neg (by rw [he]; simp), hstep]
  exact gen es' hu

def peek (r : Except Fault (AsyncSt × Option Exn)) : Option (List Str × Str × Bool × Str) := r.toOption.map (fun x => (x.1.fed, x.1.w.io.out, ended x.1, x.1.buf))

example : peek (asyncMain plat false 2 [.data bs!"hel", .data bs!"lo\nsub demo\n", .line, .line, .data bs!"ex", .line, .data bs!"it\nhello\n", .line, .line, .data bs!"hello\n", .line]) =
    some ([bs!"hello", bs!"sub demo", bs!"exit"], bs!"cli> Hello, world\ncli> This is a sample!\ncli> Closing App...\nGoodbye and thanks for all the fish.\n", true, bs!"hello\n") := by decide +kernel

example : peek (asyncMain plat false 2 [.data bs!"hello\n", .line, .fail, .line, .data bs!"exit\n", .line]) = some ([bs!"hello"], bs!"cli> Hello, world\ncli> ", false, []) := by decide +kernel

example : peek (asyncMain plat false 2 [.data bs!"! 0\n", .line]) = none := by decide +kernel

end Verif.Script
