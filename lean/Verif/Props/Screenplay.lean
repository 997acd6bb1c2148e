import Verif.Spec.Screenplay
import Verif.Props.Showcase
import Verif.Props.Program

set_option linter.unusedSimpArgs false

/-!
# C117: the program `complete`, from the keyboard to the screen
-/

namespace Verif.Showcase
open Spec Props
open Terminal (Key)
open Keyboard (decode)
open Script (Harmless line_same)

variable {σ τ α : Type}

/-! ### The scenes are unambiguous -/

theorem prompted_twice (s : Seat) : s.prompted.prompted = s.prompted := by
  obtain ⟨p, c, g, e, k⟩ := s
  cases c <;> cases e <;> rfl

theorem dialogue_unique {E : Env} {s a b : Seat} {ls : List Str} {o o' : Str} (h1 : Dialogue E s ls a o) (h2 : Dialogue E s ls b o') : a = b ∧ o = o' := by
  induction h1 generalizing b o' with
  | nil => cases h2; exact ⟨rfl, rfl⟩
  | line hl _ ih =>
    cases h2 with
    | line hl' hr =>
      obtain ⟨rfl, rfl⟩ := answer_unique hl hl'
      obtain ⟨rfl, rfl⟩ := ih hr
      exact ⟨rfl, rfl⟩

/-- A dialogue is a session in which what is typed is shown as well. -/
theorem dialogue_output {E : Env} {s a : Seat} {ls : List Str} {o : Str} (h : Dialogue E s ls a o) : ∃ o', Output E s ls a o' := by
  induction h with
  | nil => exact ⟨_, .nil⟩
  | line h1 _ ih => obtain ⟨o', h⟩ := ih; exact ⟨_, .line h1 h⟩

theorem no_newline {l : Str} (h : Printable l) : (10 : Byte) ∉ l := by
  intro hm
  have := h _ hm
  simp [printable] at this

theorem cut_line {a b x y : Str} (ha : (10 : Byte) ∉ a) (hb : (10 : Byte) ∉ b) (h : a ++ 10 :: x = b ++ 10 :: y) : a = b ∧ x = y := by
  induction a generalizing b with
  | nil =>
    cases b with
    | nil => cases h; exact ⟨rfl, rfl⟩
    | cons c b => cases h; simp at hb
  | cons c a ih =>
    cases b with
    | nil => cases h; simp at ha
    | cons d b =>
      simp only [List.cons_append, List.cons.injEq] at h
      obtain ⟨rfl, rfl⟩ := ih (fun h => ha (by simp [h])) (fun h => hb (by simp [h])) h.2
      exact ⟨by rw [h.1], rfl⟩

theorem enter_cons (l : Str) (ls : List Str) (x : Str) : enter (l :: ls) ++ x = l ++ 10 :: (enter ls ++ x) := by
  simp [enter]

theorem enter_append (a b : List Str) : enter (a ++ b) = enter a ++ enter b := by simp [enter]

/-- Text can be read in one way only as lines and the beginning of a line. -/
theorem enter_inj {a b : List Str} {x y : Str} (ha : ∀ l ∈ a, Printable l) (hb : ∀ l ∈ b, Printable l) (hx : Printable x) (hy : Printable y) (h : enter a ++ x = enter b ++ y) : a = b ∧ x = y := by
  induction a generalizing b with
  | nil =>
    cases b with
    | nil => exact ⟨rfl, h⟩
    | cons l b =>
      rw [enter_cons] at h
      have : (10 : Byte) ∈ x := by
        rw [show enter [] ++ x = x from rfl] at h
        rw [h]; simp
      exact absurd this (no_newline hx)
  | cons k a ih =>
    cases b with
    | nil =>
      rw [enter_cons] at h
      have : (10 : Byte) ∈ y := by
        rw [show enter [] ++ y = y from rfl] at h
        rw [← h]; simp
      exact absurd this (no_newline hy)
    | cons l b =>
      rw [enter_cons, enter_cons] at h
      obtain ⟨rfl, h'⟩ := cut_line (no_newline (ha k (by simp))) (no_newline (hb _ (by simp))) h
      obtain ⟨rfl, rfl⟩ := ih (fun l hl => ha l (by simp [hl])) (fun l hl => hb l (by simp [hl])) h'
      exact ⟨rfl, rfl⟩

theorem dialogue_split {E : Env} {s s' : Seat} {a b : List Str} {o : Str} (h : Dialogue E s (a ++ b) s' o) : ∃ s1 o1 o2, Dialogue E s a s1 o1 ∧ Dialogue E s1 b s' o2 := by
  induction a generalizing s o with
  | nil => exact ⟨s, [], o, .nil, h⟩
  | cons l a ih =>
    cases h with
    | line h1 h2 =>
      obtain ⟨s1, o1, o2, g1, g2⟩ := ih h2
      exact ⟨s1, _, o2, .line h1 g1, g2⟩

/-- After a line that is answered, the session goes on. -/
theorem dialogue_no_quit {E : Env} {s a b : Seat} {ls : List Str} {l o o' : Str} (h1 : Dialogue E s (ls ++ [l]) a o) (h2 : Dialogue E s ls b o') (h3 : Quits b l) : False := by
  obtain ⟨s1, o1, o2, g1, g2⟩ := dialogue_split h1
  obtain ⟨rfl, _⟩ := dialogue_unique g1 h2
  cases g2 with
  | line g _ => exact answer_no_quit g h3

/-- **C117** What is typed determines what is on the screen. -/
theorem C117_spec {E : Env} {telnet : Bool} {s : Seat} {b o o' : Str} (h1 : Scene E telnet s b o) (h2 : Scene E telnet s b o') : o = o' := by
  have end_ : ∀ (ls : List Str) (l : Str), enter ls ++ (l ++ bs!"\n") = enter (ls ++ [l]) ++ [] := by intro ls l; simp [enter]
  have both : ∀ {ls : List Str} {l : Str}, (∀ x ∈ ls, Printable x) → Printable l → ∀ x ∈ ls ++ [l], Printable x := by
    intro ls l h1 h2 x hx
    rcases List.mem_append.1 hx with h | h
    · exact h1 x h
    · rw [List.mem_singleton] at h; subst h; exact h2
  have nil : Printable [] := by intro c h; cases h
  generalize hb : b = b' at h2
  cases h1 with
  | typing d1 p1 p2 =>
    cases h2 with
    | typing d3 p3 p4 =>
      obtain ⟨rfl, rfl⟩ := enter_inj p1 p3 p2 p4 hb
      obtain ⟨rfl, rfl⟩ := dialogue_unique d1 d3
      rfl
    | over d3 p3 p4 x =>
      rw [end_] at hb
      obtain ⟨rfl, rfl⟩ := enter_inj p1 (both p3 p4) p2 nil hb
      exact (dialogue_no_quit d1 d3 x).elim
  | over d1 p1 p2 x =>
    cases h2 with
    | typing d3 p3 p4 =>
      rw [end_] at hb
      obtain ⟨rfl, rfl⟩ := enter_inj (both p1 p2) p3 nil p4 hb
      exact (dialogue_no_quit d3 d1 x).elim
    | over d3 p3 p4 _ =>
      rw [end_, end_] at hb
      have := (enter_inj (both p1 p2) (both p3 p4) nil nil hb).1
      obtain ⟨rfl, e⟩ := List.append_inj' this rfl
      cases e
      obtain ⟨rfl, rfl⟩ := dialogue_unique d1 d3
      rfl

/-! ### Keys -/

/-- The key of a character. -/
def keyOf (c : Byte) : Key := if c = 10 then .ret else .ascii c

theorem keys_printable {l : Str} (h : Printable l) : l.map keyOf = l.map Key.ascii := by
  apply List.map_congr_left
  intro c hc
  have : c ≠ 10 := fun e => no_newline h (e ▸ hc)
  simp [keyOf, this]

/-- Printable characters and newlines. -/
def Plainly (b : Str) : Prop := ∀ c ∈ b, printable c = true ∨ c = 10

theorem plainly_enter {ls : List Str} (h : ∀ l ∈ ls, Printable l) : Plainly (enter ls) := by
  intro c hc
  simp only [enter, List.mem_flatMap, List.mem_append, List.mem_singleton] at hc
  obtain ⟨l, h1, h2 | h2⟩ := hc
  · exact .inl (h l h1 c h2)
  · exact .inr h2

theorem decode_plainly (p : Platform) (b : Str) (h : Plainly b) : decode p .first b = (.first, b.map keyOf) := by
  induction b with
  | nil => rfl
  | cons c b ih =>
    have e : decode p .first [c] = (.first, [keyOf c]) := by
      rcases h c (by simp) with h1 | rfl
      · have := decode_printable p [c] (by intro d hd; rw [List.mem_singleton] at hd; subst hd; exact h1)
        rw [this]
        have : c ≠ 10 := by rintro rfl; simp [printable] at h1
        simp [keyOf, this]
      · exact sends_decode (p := p) Sends.ret
    rw [show c :: b = [c] ++ b from rfl, decode_append, e, ih (fun d hd => h d (by simp [hd]))]
    simp

/-! ### A program that goes according to the script -/

/-- Each key typed is handled without an exception or undefined behaviour, and it is the last one that stops the scheduler. -/
def Goes (A : App σ τ) (stopped : σ → Bool) (fuel : Nat) (q0 : Processor.Proc σ τ) (b : Str) : Prop :=
  ∀ a, a <+: b → ∃ q, Processor.run A fuel (a.map keyOf) q0 = .ok (q, none) ∧ (stopped q.w.app = true ↔ a = b)

theorem goes_posted {A : App σ τ} {stopped : σ → Bool} {fuel : Nat} {p : Platform} {q0 : Processor.Proc σ τ} {b arr rest : Str} {s : Program.St σ τ α} (hb : Plainly b) (ha : arr <+: b ++ rest)
    (g : InTurn A stopped fuel p q0 arr s) : s.loc.kb.posted <+: b.map keyOf ++ (decode p .first rest).2 := by
  obtain ⟨r, g1, g2⟩ := g.typing.read
  obtain ⟨t, ht⟩ := ha
  have h1 : s.loc.kb.posted <+: (decode p .first arr).2 := by rw [g1]; exact decoded_prefix g2
  have h2 : (decode p .first arr).2 <+: (decode p .first (arr ++ t)).2 := by rw [decode_append]; exact List.prefix_append _ _
  rw [ht, decode_append, decode_plainly p b hb] at h2
  exact h1.trans h2

/-- How far the program has come: it has handled some of the characters typed. -/
theorem goes_handled {A : App σ τ} {stopped : σ → Bool} {fuel : Nat} {p : Platform} {q0 : Processor.Proc σ τ} {b arr rest : Str} {s : Program.St σ τ α} (hb : Plainly b) (ha : arr <+: b ++ rest)
    (hg : Goes A stopped fuel q0 b) (g : InTurn A stopped fuel p q0 arr s) :
    s.loc.handled ≤ b.length ∧ s.loc.kb.posted.take s.loc.handled = (b.take s.loc.handled).map keyOf ∧ Processor.run A fuel ((b.take s.loc.handled).map keyOf) q0 = .ok (s.loc.proc, none) ∧
      (stopped s.loc.proc.w.app = true ↔ s.loc.handled = b.length) := by
  have hp := goes_posted hb ha g
  have hlen : s.loc.handled ≤ b.length := by
    refine Classical.byContradiction fun hn => ?_
    have hlt : b.length < s.loc.handled := by omega
    have e : s.loc.kb.posted.take b.length = b.map keyOf := by
      obtain ⟨t, ht⟩ := hp
      have h1 : b.length ≤ s.loc.kb.posted.length := Nat.le_trans (Nat.le_of_lt hlt) g.typing.handled
      have := congrArg (List.take b.length) ht
      rw [List.take_append_of_le_length h1] at this
      rw [this, List.take_append_of_le_length (by simp), List.take_of_length_le (by simp)]
    obtain ⟨q, h1, h2⟩ := hg b (List.prefix_refl _)
    have := g.first b.length hlt q none (by rw [e]; exact h1)
    rw [h2.2 rfl] at this; cases this
  have e : s.loc.kb.posted.take s.loc.handled = (b.take s.loc.handled).map keyOf := by
    obtain ⟨t, ht⟩ := hp
    have := congrArg (List.take s.loc.handled) ht
    rw [List.take_append_of_le_length g.typing.handled] at this
    rw [this, List.take_append_of_le_length (by simpa using hlen), List.map_take]
  have hr := g.typing.proc
  rw [e] at hr
  refine ⟨hlen, e, hr, ?_⟩
  obtain ⟨q, h1, h2⟩ := hg (b.take s.loc.handled) (List.take_prefix _ _)
  rw [hr] at h1
  cases h1
  rw [h2]
  constructor
  · intro h
    have := congrArg List.length h
    rw [List.length_take] at this
    omega
  · intro h
    rw [h, List.take_length]

/-- Then nothing goes wrong, whatever the order in which things happen. -/
theorem goes_step {A : App σ τ} {stopped : σ → Bool} {fuel : Nat} {p : Platform} {manual : α → α} {q0 : Processor.Proc σ τ} {b arr rest : Str} {s : Program.St σ τ α} (hb : Plainly b) (ha : arr <+: b ++ rest)
    (hg : Goes A stopped fuel q0 b) (g : InTurn A stopped fuel p q0 arr s) (e : Program.Ev α) :
    Program.step A stopped fuel p manual s e = .ok none ∨ ∃ s', Program.step A stopped fuel p manual s e = .ok (some (s', none)) := by
  obtain ⟨hlen, hpost, hrun, hstop⟩ := goes_handled hb ha hg g
  cases e with
  | kb e =>
    simp only [Program.step, Local.step]
    split
    · cases Keyboard.step p manual s.loc.kb e with
      | none => exact .inl rfl
      | some k => exact .inr ⟨_, rfl⟩
    · exact .inl rfl
  | task =>
    simp only [Program.step]
    split
    · rename_i hcond
      simp only [Local.step]
      split
      · exact .inl rfl
      · cases hk : s.loc.kb.posted[s.loc.handled]? with
        | none => exact .inl rfl
        | some key =>
          simp only [g.typing.live, if_true]
          have hlt : s.loc.handled < b.length := by
            rcases Nat.lt_or_ge s.loc.handled b.length with h | h
            · exact h
            · have := hstop.2 (by omega)
              rw [hcond.2] at this; cases this
          obtain ⟨hl, hk'⟩ := List.getElem?_eq_some_iff.1 hk
          have e1 : s.loc.kb.posted.take (s.loc.handled + 1) = (b.take s.loc.handled).map keyOf ++ [key] := by
            rw [List.take_add_one, hk, hpost]; rfl
          have e2 : s.loc.kb.posted.take (s.loc.handled + 1) = (b.take (s.loc.handled + 1)).map keyOf := by
            obtain ⟨t, ht⟩ := goes_posted hb ha g
            have := congrArg (List.take (s.loc.handled + 1)) ht
            rw [List.take_append_of_le_length hl] at this
            rw [this, List.take_append_of_le_length (by rw [List.length_map]; exact hlt), List.map_take]
          obtain ⟨q, h1, _⟩ := hg (b.take (s.loc.handled + 1)) (List.take_prefix _ _)
          rw [← e2, e1, run_snoc A fuel _ _ _ _ hrun] at h1
          rw [h1]
          simp only
          split
          · exact .inr ⟨_, rfl⟩
          · exact .inr ⟨_, rfl⟩
    · exact .inl rfl
  | done =>
    simp only [Program.step, Local.step]
    split
    · split
      · cases Keyboard.step p manual s.loc.kb .activate with
        | none => exact .inl rfl
        | some k => exact .inr ⟨_, rfl⟩
      · exact .inl rfl
    · exact .inl rfl
  | ret =>
    simp only [Program.step]
    split
    · exact .inr ⟨_, rfl⟩
    · exact .inl rfl
  | destroy =>
    simp only [Program.step]
    split
    · cases Keyboard.step p manual s.loc.kb .stop with
      | none => exact .inl rfl
      | some k => exact .inr ⟨_, rfl⟩
    · exact .inl rfl
  | join =>
    simp only [Program.step]
    split
    · exact .inr ⟨_, rfl⟩
    · exact .inl rfl

theorem goes_run {A : App σ τ} {stopped : σ → Bool} {fuel : Nat} {p : Platform} {manual : α → α} {q0 : Processor.Proc σ τ} {b rest : Str} (hb : Plainly b) (hg : Goes A stopped fuel q0 b) :
    ∀ (es : List (Program.Ev α)) {arr : Str} {s : Program.St σ τ α}, InTurn A stopped fuel p q0 arr s → (∀ e ∈ es, Props.Calm e) → arr ++ Program.typed es <+: b ++ rest →
      Program.run A stopped fuel p manual es s = .ok none ∨ ∃ s', Program.run A stopped fuel p manual es s = .ok (some (s', none))
  | [], _, s, _, _, _ => .inr ⟨s, rfl⟩
  | e :: es, arr, s, g, hc, ha => by
    rw [Program.typed_cons, ← List.append_assoc] at ha
    simp only [Program.run]
    rcases goes_step (manual := manual) hb ((List.prefix_append _ _).trans ((List.prefix_append _ _).trans ha)) hg g e with h | ⟨s', h⟩
    · rw [h]; exact .inl rfl
    · rw [h]
      exact goes_run hb hg es (inTurn_step g (hc e (by simp)) h) (fun e he => hc e (by simp [he])) ha

/-! ### Typing -/

section
variable (E : Env) {store : τ → List Str → τ} {stored : τ → List Str} {telnet : Bool}

theorem at_io {s : Seat} {w : W τ} (h : At s w) (io : Io) (h1 : io.style.color = w.io.style.color) (h2 : (io.style.forced || io.style.tty) = (w.io.style.forced || w.io.style.tty)) : At s { w with io := io } :=
  ⟨h.tree, h.others, h.color15, h.color16, h.current, h.exit, h.app, by rw [← h.color]; exact h1, by rw [← h.escapes]; exact h2, h.hist, h.kept⟩

theorem key_shown {s : Seat} {w : W τ} {l : Str} {c : Byte} (fuel : Nat) (h : At s w) (hp : s.prompted = s) (hc : printable c = true) :
    ∃ w', Processor.keypressed (app E store stored telnet) fuel ⟨w, ⟨l, l.length⟩, true⟩ (.ascii c) = .ok (⟨w', ⟨l ++ [c], (l ++ [c]).length⟩, true⟩, none) ∧ At s w' ∧ w'.io.out = w.io.out ++ s.echo c := by
  have hn : c ≠ b%'\t' := by rintro rfl; simp [printable] at hc
  have e97 : decimal 97 = bs!"97" := by decide +kernel
  have e0 : decimal 0 = bs!"0" := by decide +kernel
  have hio : ∃ io, Terminal.keypressed ⟨l, l.length⟩ w.io (.ascii c) = .ok (⟨l ++ [c], (l ++ [c]).length⟩, io, .nothing) ∧ io.style.color = w.io.style.color ∧ (io.style.forced || io.style.tty) = (w.io.style.forced || w.io.style.tty) ∧
      io.out = w.io.out ++ s.echo c := by
    have hcol := h.color
    have hesc := h.escapes
    have hpe : (s.colour || s.escapes) = s.escapes := congrArg Seat.escapes hp
    simp only [Terminal.keypressed, hn, if_false]
    simp only [Terminal.suffix, Terminal.repSub, Terminal.insertAt, bind, Except.bind]
    revert hcol hesc
    obtain ⟨⟨col, tty, f⟩, out⟩ := w.io
    intro hcol hesc
    simp only at hcol hesc
    rw [← hcol, ← hesc] at hpe
    simp [Seat.echo, ← hcol, ← hesc]
    cases col <;> cases tty <;> cases f <;> simp_all [Io.beforeInput, Io.afterInput, Io.put, Io.force, Io.sgr, Terminal.rep]
  obtain ⟨io, h1, h2, h3, h4⟩ := hio
  refine ⟨{ w with io := io }, ?_, at_io h io h2 h3, h4⟩
  simp only [Processor.keypressed, h1, bind, Except.bind, Processor.newCommand]

theorem typing_shown (fuel : Nat) : ∀ (cs : Str) (l : Str) {s : Seat} {w : W τ}, At s w → s.prompted = s → Printable cs →
    ∃ w', Processor.run (app E store stored telnet) fuel (cs.map Key.ascii) ⟨w, ⟨l, l.length⟩, true⟩ = .ok (⟨w', ⟨l ++ cs, (l ++ cs).length⟩, true⟩, none) ∧ At s w' ∧ w'.io.out = w.io.out ++ s.echoes cs
  | [], l, s, w, h, _, _ => ⟨w, by simp [Processor.run], h, by simp [Seat.echoes]⟩
  | c :: cs, l, s, w, h, hp, hc => by
    obtain ⟨w1, h1, h2, h3⟩ := key_shown (store := store) (stored := stored) (telnet := telnet) E (l := l) fuel h hp (hc c (by simp))
    obtain ⟨w2, g1, g2, g3⟩ := typing_shown fuel cs (l ++ [c]) h2 hp (fun d hd => hc d (by simp [hd]))
    refine ⟨w2, ?_, g2, ?_⟩
    · simp only [List.map_cons, Processor.run, h1, bind, Except.bind]
      rw [g1]
      simp
    · rw [g3, h3]; simp [Seat.echoes]

/-- A line, with Enter. -/
theorem line_shown (fuel : Nat) {s : Seat} {w : W τ} {l : Str} (h : At s w) (hp : s.prompted = s) (hl : Printable l) :
    ∃ w1, At s w1 ∧ w1.io.out = w.io.out ++ s.echoes l ++ bs!"\r\n" ∧
      Processor.run (app E store stored telnet) fuel ((l ++ bs!"\n").map keyOf) ⟨w, ⟨[], 0⟩, true⟩ = enterLine (app E store stored telnet) fuel l w1 := by
  obtain ⟨w1, h1, h2, h3⟩ := typing_shown (store := store) (stored := stored) (telnet := telnet) E fuel l [] h hp hl
  refine ⟨{ w1 with io := w1.io.put bs!"\r\n" }, at_io h2 _ rfl rfl, by simp [Io.put, h3], ?_⟩
  rw [List.map_append, keys_printable hl, proc_run_append]
  simp only [List.length_nil] at h1
  rw [h1]
  simp only [List.nil_append, enterLine, List.map_cons, List.map_nil, keyOf, if_true, Processor.run, Processor.keypressed, Terminal.keypressed, Processor.newCommand, bind, Except.bind]
  rcases feed (app E store stored telnet) fuel l { w1 with io := w1.io.put bs!"\r\n" } with f | ⟨w2, _ | e⟩
  · rfl
  · simp only
    cases prompt w2 <;> rfl
  · rfl

theorem prefix_line {l a x : Str} (h : a <+: l ++ bs!"\n" ++ x) : a <+: l ∨ ∃ m, a = l ++ bs!"\n" ++ m ∧ m <+: x := by
  rcases Nat.lt_or_ge l.length a.length with hlt | hle
  · obtain ⟨m, rfl⟩ := List.prefix_of_prefix_length_le (List.prefix_append _ x) h (by simp; omega)
    exact .inr ⟨m, rfl, (List.prefix_append_right_inj _).1 h⟩
  · rw [List.append_assoc] at h
    exact .inl (List.prefix_of_prefix_length_le h (List.prefix_append _ _) hle)

theorem scene_cons {s s' : Seat} {l t b o : Str} (hp : Printable l) (hl : Answer E s l s' t) (h : Scene E telnet s'.prompted b o) :
    Scene E telnet s (l ++ bs!"\n" ++ b) (s.echoes l ++ bs!"\r\n" ++ t ++ s'.prompt ++ o) := by
  have hall : ∀ {ls : List Str}, (∀ x ∈ ls, Printable x) → ∀ x ∈ l :: ls, Printable x := by
    intro ls h x hx
    rcases List.mem_cons.1 hx with rfl | hx
    · exact hp
    · exact h x hx
  cases h with
  | @typing ls s2 o2 k d p1 p2 =>
    have := Scene.typing (telnet := telnet) (.line hl d) (hall p1) p2
    simpa [enter] using this
  | @over ls s2 o2 k d p1 p2 x =>
    have := Scene.over (telnet := telnet) (.line hl d) (hall p1) p2 x
    simpa [enter] using this

theorem play (hq : Quiet E) (fuel : Nat) {x : Str} : ∀ (ls : List Str) {s : Seat} {w : W τ}, At s w → s.prompted = s →
    (∀ l ∈ ls ++ [x], Printable l) → ¬ Breaks E fuel s ls → (∀ s' o, Output E s ls s' o → Quits s' x ∧ Within E fuel s' x) → ∀ b, b <+: enter (ls ++ [x]) →
    ∃ q o, Processor.run (app E store stored telnet) (fuel + 1) (b.map keyOf) ⟨w, ⟨[], 0⟩, true⟩ = .ok (q, none) ∧ Scene E telnet s b o ∧ q.w.io.out = w.io.out ++ o ∧ (q.w.app.stopped = true ↔ telnet = false ∧ b = enter (ls ++ [x])) ∧
      q.w.app.ub = false ∧ (q.w.exit = true ↔ b = enter (ls ++ [x]))
  | [], s, w, h, hp, hl, _, hx, b, hb => by
    have px := hl x (by simp)
    obtain ⟨hx, hwx⟩ := hx s [] .nil
    rcases prefix_line (x := []) (by simpa [enter] using hb) with hb | ⟨m, rfl, hm⟩
    · have pb : Printable b := fun c hc => px c (hb.subset hc)
      obtain ⟨w1, h1, h2, h3⟩ := typing_shown (store := store) (stored := stored) (telnet := telnet) E (fuel + 1) b [] h hp pb
      have ne : b ≠ enter ([] ++ [x]) := by
        rintro rfl
        have := hb.length_le
        simp [enter] at this
        omega
      refine ⟨_, s.echoes b, by rw [keys_printable pb]; exact h1, by simpa [enter] using Scene.typing (E := E) (telnet := telnet) (s := s) .nil (by simp) pb, h3, ?_, ?_, ?_⟩
      · simp only [h2.app, ne]; simp
      · simp [h2.app]
      · simp only [h2.exit, ne]; simp
    · rw [List.prefix_nil] at hm
      subst hm
      obtain ⟨w1, h1, h2, h3⟩ := line_shown (store := store) (stored := stored) (telnet := telnet) E (fuel + 1) h hp px
      rcases answer_step (store := store) (stored := stored) (telnet := telnet) E hq fuel h1 hwx with ⟨w2, e1, e2, e3, e4, e5⟩ | ⟨e1, _⟩ | ⟨_, _, _, _, _, e1, _⟩
      · have hr : enterLine (app E store stored telnet) (fuel + 1) x w1 = .ok (⟨w2, ⟨[], 0⟩, true⟩, none) := by simp only [enterLine, e2, prompt, e4, if_true]
        refine ⟨_, s.echoes x ++ bs!"\r\n" ++ farewell telnet, by rw [List.append_nil, h3]; exact hr, ?_, ?_, ?_, ?_, ?_⟩
        · simpa [enter] using Scene.over (E := E) (telnet := telnet) (s := s) .nil (by simp) px hx
        · rw [e3, h2]; simp
        · simp [e5, enter]
        · simp [e5]
        · simp [e4, enter]
      · exact absurd hx (fails_no_quit e1)
      · exact absurd hx (answer_no_quit e1)
  | l :: ls, s, w, h, hp, hl, hbr, hx, b, hb => by
    have pl := hl l (by simp)
    have hw : Within E fuel s l := Classical.byContradiction fun hw => hbr ⟨[], l, ls, s, [], rfl, .nil, .inr (.inr hw)⟩
    have hb' : b <+: l ++ bs!"\n" ++ enter (ls ++ [x]) := by simpa [enter] using hb
    rcases prefix_line hb' with hb | ⟨m, rfl, hm⟩
    · have pb : Printable b := fun c hc => pl c (hb.subset hc)
      obtain ⟨w1, h1, h2, h3⟩ := typing_shown (store := store) (stored := stored) (telnet := telnet) E (fuel + 1) b [] h hp pb
      have ne : b ≠ enter (l :: ls ++ [x]) := by
        rintro rfl
        have := hb.length_le
        simp [enter] at this
        omega
      refine ⟨_, s.echoes b, by rw [keys_printable pb]; exact h1, by simpa [enter] using Scene.typing (E := E) (telnet := telnet) (s := s) .nil (by simp) pb, h3, ?_, ?_, ?_⟩
      · simp only [h2.app, ne]; simp
      · simp [h2.app]
      · simp only [h2.exit, ne]; simp
    · obtain ⟨w1, h1, h2, h3⟩ := line_shown (store := store) (stored := stored) (telnet := telnet) E (fuel + 1) h hp pl
      rcases answer_step (store := store) (stored := stored) (telnet := telnet) E hq fuel h1 hw with ⟨w2, e1, _⟩ | ⟨e1, _⟩ | ⟨w2, s2, t, _, e3, e4, e5, e6⟩
      · exact absurd ⟨[], l, ls, s, [], rfl, .nil, .inr (.inl e1)⟩ hbr
      · exact absurd ⟨[], l, ls, s, [], rfl, .nil, .inl e1⟩ hbr
      · obtain ⟨w3, p1, p2, p3⟩ := prompt_says e5
        have hr : enterLine (app E store stored telnet) (fuel + 1) l w1 = .ok (⟨w3, ⟨[], 0⟩, true⟩, none) := by simp only [enterLine, e3, p1]
        obtain ⟨q, o, g1, g2, g3, g4, g5, g6⟩ := play hq fuel ls p2 (prompted_twice _) (fun k hk => hl k (by simp only [List.cons_append, List.mem_cons]; exact .inr hk)) (by
          rintro ⟨a, k, c, s', o, rfl, k1, k2⟩
          exact hbr ⟨l :: a, k, c, s', _, rfl, .line e4 k1, k2⟩) (fun s' o ho => hx s' _ (.line e4 ho)) m hm
        have hiff : (l ++ bs!"\n" ++ m = enter (l :: ls ++ [x])) ↔ m = enter (ls ++ [x]) := by
          rw [show enter (l :: ls ++ [x]) = l ++ bs!"\n" ++ enter (ls ++ [x]) by simp [enter]]
          exact List.append_right_inj _
        refine ⟨q, _, ?_, scene_cons E pl e4 g2, ?_, by rw [hiff]; exact g4, g5, by rw [hiff]; exact g6⟩
        · rw [List.map_append, proc_run_append, h3, hr]
          exact g1
        · rw [g3, p3, e6, h2]; simp

end

/-! ### The program -/

section
variable (E : Env) (store : τ → List Str → τ) (stored : τ → List Str)

theorem created {manual : α → α} {tt : α} {n : Nat} {tty : Bool} {st : τ} {l : Local.St St τ α} (h0 : Local.create (app E store stored false) manual tt n (cli st) ⟨⟨false, tty, false⟩, []⟩ = .ok (l, none)) :
    ∃ w, l.proc = ⟨w, ⟨[], 0⟩, true⟩ ∧ At (Seat.start tty (Book.open n (stored st))) w ∧ w.io.out = (Seat.start tty (Book.open n (stored st))).prompt := by
  have hs := at_start (store := store) (stored := stored) (telnet := false) E n tty st
  obtain ⟨w, p1, p2, p3⟩ := prompt_says hs
  have hp : (Seat.start tty (Book.open n (stored st))).prompted = Seat.start tty (Book.open n (stored st)) := by cases tty <;> rfl
  rw [hp] at p2
  unfold Local.create at h0
  split at h0
  · rename_i e; cases e
  · rename_i w' e
    split at h0
    · cases h0
    · rename_i w'' hw
      cases h0
      have e' : w' = session E store stored false n tty st := by
        simp only [enterSession, app, optAction] at e
        injection e with e
        exact e.symm
      rw [e'] at hw
      cases hw.symm.trans p1
      exact ⟨_, rfl, p2, p3⟩

/-- Lines to be typed, of which the last one ends the session and no other does: printable ones, for which the behaviour is defined, and which do not lead through more than so many lines that refer to the history. -/
structure Play (E : Env) (depth : Nat) (s : Seat) (ls : List Str) (x : Str) : Prop where
  quiet : Quiet E
  lines : ∀ l ∈ ls ++ [x], Printable l
  fine : ¬ Breaks E depth s ls
  last : ∀ s' o, Output E s ls s' o → Quits s' x ∧ Within E depth s' x

theorem play_plainly {E : Env} {depth : Nat} {s : Seat} {ls : List Str} {x : Str} (h : Play E depth s ls x) : Plainly (enter (ls ++ [x])) := plainly_enter h.lines

theorem play_at {tty : Bool} {ls : List Str} {x : Str} {n : Nat} {st : τ} {fuel : Nat} (h : Play E fuel (Seat.start tty (Book.open n (stored st))) ls x) {manual : α → α} {tt : α} {l : Local.St St τ α}
    (h0 : Local.create (app E store stored false) manual tt n (cli st) ⟨⟨false, tty, false⟩, []⟩ = .ok (l, none)) (b : Str) (hb : b <+: enter (ls ++ [x])) :
    ∃ q o, Processor.run (app E store stored false) (fuel + 1) (b.map keyOf) l.proc = .ok (q, none) ∧ Scene E false (Seat.start tty (Book.open n (stored st))) b o ∧ q.w.io.out = (Seat.start tty (Book.open n (stored st))).prompt ++ o ∧
      (q.w.app.stopped = true ↔ b = enter (ls ++ [x])) ∧ q.w.app.ub = false ∧ (q.w.exit = true ↔ b = enter (ls ++ [x])) := by
  obtain ⟨w, h1, h2, h3⟩ := created E store stored h0
  obtain ⟨q, o, g1, g2, g3, g4⟩ := play (store := store) (stored := stored) E h.quiet fuel ls h2 (by cases tty <;> rfl) h.lines h.fine h.last b hb
  exact ⟨q, o, by rw [h1]; exact g1, g2, by rw [g3, h3], by simpa using g4.1, g4.2⟩

theorem play_goes {tty : Bool} {ls : List Str} {x : Str} {n : Nat} {st : τ} {fuel : Nat} (h : Play E fuel (Seat.start tty (Book.open n (stored st))) ls x) {manual : α → α} {tt : α} {l : Local.St St τ α}
    (h0 : Local.create (app E store stored false) manual tt n (cli st) ⟨⟨false, tty, false⟩, []⟩ = .ok (l, none)) : Goes (app E store stored false) (·.stopped) (fuel + 1) l.proc (enter (ls ++ [x])) := by
  intro b hb
  obtain ⟨q, o, g1, _, _, g4, _⟩ := play_at E store stored h h0 b hb
  exact ⟨q, g1, g4⟩

/-- What has been handled has been typed. -/
theorem handled_typed {A : App σ τ} {stopped : σ → Bool} {fuel : Nat} {p : Platform} {q0 : Processor.Proc σ τ} {b arr rest : Str} {s : Program.St σ τ α} (hb : Plainly b) (ha : arr <+: b ++ rest)
    (g : InTurn A stopped fuel p q0 arr s) : b.take s.loc.handled <+: arr := by
  rcases Nat.le_total arr.length b.length with hle | hle
  · have h1 : arr <+: b := List.prefix_of_prefix_length_le ha (List.prefix_append _ _) hle
    obtain ⟨r, g1, g2⟩ := g.typing.read
    have h2 : s.loc.kb.posted <+: (decode p .first arr).2 := by rw [g1]; exact decoded_prefix g2
    rw [decode_plainly p arr (fun c hc => hb c (h1.subset hc))] at h2
    have h3 := h2.length_le
    have h4 := g.typing.handled
    rw [List.length_map] at h3
    exact List.prefix_of_prefix_length_le (List.take_prefix _ _) h1 (by rw [List.length_take]; omega)
  · exact (List.take_prefix _ _).trans (List.prefix_of_prefix_length_le (List.prefix_append _ _) ha hle)

/-- **C117** (partial) At any time, whatever the order in which the threads take their steps and the characters are typed: the screen of the program `complete` shows the prompt and what belongs to some of the characters typed, those that
    have been handled. The scheduler is left when the last line, which ends the session, has been handled, and nothing typed after it is. Missing: as for C113, lines for which the behaviour is undefined; other keys than characters and Enter (before the
    end of the session). -/
theorem C117_screen_partial (fuel : Nat) (p : Platform) (manual : α → α) (tt : α) (n : Nat) (tty : Bool) (st : τ) (l : Local.St St τ α) (s : Program.St St τ α) (es : List (Program.Ev α)) (ls : List Str) (x rest : Str)
    (h : Play E fuel (Seat.start tty (Book.open n (stored st))) ls x) (h0 : Local.create (app E store stored false) manual tt n (cli st) ⟨⟨false, tty, false⟩, []⟩ = .ok (l, none)) (hc : ∀ e ∈ es, Props.Calm e)
    (ht : Program.typed es <+: enter (ls ++ [x]) ++ rest) (hr : Program.run (app E store stored false) (·.stopped) (fuel + 1) p manual es ⟨l, .run⟩ = .ok (some (s, none))) :
    ∃ b o, b <+: Program.typed es ∧ b <+: enter (ls ++ [x]) ∧ Scene E false (Seat.start tty (Book.open n (stored st))) b o ∧ s.loc.proc.w.io.out = (Seat.start tty (Book.open n (stored st))).prompt ++ o ∧
      (s.phase ≠ .run → b = enter (ls ++ [x])) ∧ s.loc.proc.w.app.ub = false ∧ (s.loc.proc.w.exit = true ↔ b = enter (ls ++ [x])) := by
  have g := inTurn_run es (inTurn_create (stopped := (·.stopped)) (fuel := fuel + 1) (p := p) h0) hc hr
  rw [List.nil_append] at g
  have hb := play_plainly h
  obtain ⟨k1, k2, k3, k4⟩ := goes_handled hb ht (play_goes E store stored h h0) g
  obtain ⟨q, o, g1, g2, g3, g4, g5, g6⟩ := play_at E store stored h h0 _ (List.take_prefix s.loc.handled _)
  rw [k3] at g1
  cases g1
  exact ⟨_, o, handled_typed hb ht g, List.take_prefix _ _, g2, g3, fun hp => g4.1 (g.after hp).1, g5, g6⟩

/-- **C117** (partial) Nothing goes wrong: the behaviour is defined, and no exception leaves the scheduler. -/
theorem C117_defined_partial (fuel : Nat) (p : Platform) (manual : α → α) (tt : α) (n : Nat) (tty : Bool) (st : τ) (l : Local.St St τ α) (es : List (Program.Ev α)) (ls : List Str) (x rest : Str)
    (h : Play E fuel (Seat.start tty (Book.open n (stored st))) ls x) (h0 : Local.create (app E store stored false) manual tt n (cli st) ⟨⟨false, tty, false⟩, []⟩ = .ok (l, none)) (hc : ∀ e ∈ es, Props.Calm e)
    (ht : Program.typed es <+: enter (ls ++ [x]) ++ rest) :
    Program.run (app E store stored false) (·.stopped) (fuel + 1) p manual es ⟨l, .run⟩ = .ok none ∨ ∃ s, Program.run (app E store stored false) (·.stopped) (fuel + 1) p manual es ⟨l, .run⟩ = .ok (some (s, none)) :=
  goes_run (play_plainly h) (play_goes E store stored h h0) es (inTurn_create h0) hc (by rw [List.nil_append]; exact ht)

/-- **C117** (partial) When neither thread can do anything more (which is so after a bounded number of steps, `C90_bounded`): the program waits for input, and the screen shows everything typed and the answers; or it is over, and the
    screen shows all of the lines, the answers and the farewell; or this is so but for the end of the program, which waits for the rest of half an escape sequence that has been typed after the end of the session. -/
theorem C117_rest_partial (fuel : Nat) (p : Platform) (manual : α → α) (tt : α) (n : Nat) (tty : Bool) (st : τ) (l : Local.St St τ α) (s : Program.St St τ α) (es : List (Program.Ev α)) (ls : List Str) (x rest : Str)
    (h : Play E fuel (Seat.start tty (Book.open n (stored st))) ls x) (h0 : Local.create (app E store stored false) manual tt n (cli st) ⟨⟨false, tty, false⟩, []⟩ = .ok (l, none)) (hc : ∀ e ∈ es, Props.Calm e)
    (ht : Program.typed es <+: enter (ls ++ [x]) ++ rest) (hr : Program.run (app E store stored false) (·.stopped) (fuel + 1) p manual es ⟨l, .run⟩ = .ok (some (s, none)))
    (hq : ∀ e, Moves e → Program.step (app E store stored false) (·.stopped) (fuel + 1) p manual s e = .ok none) :
    ∃ o, s.loc.proc.w.io.out = (Seat.start tty (Book.open n (stored st))).prompt ++ o ∧
      ((s.phase = .run ∧ Program.typed es <+: enter (ls ++ [x]) ∧ Program.typed es ≠ enter (ls ++ [x]) ∧ Scene E false (Seat.start tty (Book.open n (stored st))) (Program.typed es) o) ∨
       (s.phase = .over ∧ enter (ls ++ [x]) <+: Program.typed es ∧ Scene E false (Seat.start tty (Book.open n (stored st))) (enter (ls ++ [x])) o) ∨
       (s.phase = .joining ∧ enter (ls ++ [x]) <+: Program.typed es ∧ Scene E false (Seat.start tty (Book.open n (stored st))) (enter (ls ++ [x])) o ∧ (decode p .first (Program.typed es)).1 ≠ .first)) := by
  have g := inTurn_run es (inTurn_create (stopped := (·.stopped)) (fuel := fuel + 1) (p := p) h0) hc hr
  rw [List.nil_append] at g
  have hb := play_plainly h
  obtain ⟨k1, k2, k3, k4⟩ := goes_handled hb ht (play_goes E store stored h h0) g
  obtain ⟨q, o, g1, g2, g3, g4, _⟩ := play_at E store stored h h0 _ (List.take_prefix s.loc.handled _)
  rw [k3] at g1
  cases g1
  have hty := handled_typed hb ht g
  refine ⟨o, g3, ?_⟩
  rcases program_rest _ _ _ p manual _ _ s g hq with h1 | ⟨h1, h2, h3, h4⟩ | ⟨h1, h2⟩
  · have e := g4.1 (g.after (by rw [h1]; simp)).1
    rw [e] at hty g2
    exact .inr (.inl ⟨h1, hty, g2⟩)
  · have hlt : s.loc.handled < (enter (ls ++ [x])).length := by
      rcases Nat.lt_or_ge s.loc.handled (enter (ls ++ [x])).length with hlt | hge
      · exact hlt
      · have := k4.2 (by omega)
        rw [h2] at this; cases this
    have hpre : Program.typed es <+: enter (ls ++ [x]) := by
      rcases Nat.le_total (Program.typed es).length (enter (ls ++ [x])).length with hle | hle
      · exact List.prefix_of_prefix_length_le ht (List.prefix_append _ _) hle
      · obtain ⟨t, htt⟩ := List.prefix_of_prefix_length_le (List.prefix_append _ _) ht hle
        have := congrArg List.length h4
        rw [← htt, decode_append, decode_plainly p _ hb] at this
        simp only [List.length_append, List.length_map] at this
        omega
    have hlen : s.loc.handled = (Program.typed es).length := by
      rw [h3, h4, decode_plainly p _ (fun c hc => hb c (hpre.subset hc)), List.length_map]
    have e : (enter (ls ++ [x])).take s.loc.handled = Program.typed es := by
      obtain ⟨t, htt⟩ := hpre
      rw [← htt, hlen, List.take_left]
    rw [e] at g2
    refine .inl ⟨h1, hpre, fun hx => ?_, g2⟩
    rw [hlen, hx] at hlt
    omega
  · have e := g4.1 (g.after (by rw [h1]; simp)).1
    rw [e] at hty g2
    exact .inr (.inr ⟨h1, hty, g2, h2⟩)

end

/-! ### Examples -/

/-- Lines that can be typed: one of the table, and that line again. -/
theorem play_reverse : Play one 1 (fresh true) [bs!"reverse abc", bs!"! 0"] bs!"exit" := by
  obtain ⟨a1, a2⟩ := reverse_answer (s := fresh true) rfl
  obtain ⟨b1, b2⟩ := again_answer
  refine ⟨quiet_one, ?_, breaks_cons a1 a2 reverse_within (breaks_cons b1 b2 again_within breaks_nil), fun _ _ _ => ⟨.exit ((split_iff _ _).1 rfl), .plain (harmless_one (by decide)) fun ⟨_, hb⟩ => ?_⟩⟩
  rotate_left
  · obtain ⟨a, h, _⟩ := hb
    exact absurd (congrArg List.head? (line_same ((split_iff bs!"exit" [bs!"exit"]).1 rfl) h)) (by simp)
  intro l h
  simp only [List.cons_append, List.nil_append, List.mem_cons, List.not_mem_nil, or_false] at h
  rcases h with rfl | rfl | rfl <;> (unfold Printable; decide)

/-- The program with a terminal, before anything is typed. -/
def opened : Option (Local.St St Unit Bool) :=
  match Local.create (app one (fun _ _ => ()) (fun _ => []) false) (fun _ => false) true 200 (cli ()) ⟨⟨false, true, false⟩, []⟩ with
  | .ok (l, none) => some l
  | _ => none

/-- What it comes to. -/
def watch (es : List (Program.Ev Bool)) : Option (Str × Program.Phase) :=
  match opened with
  | none => none
  | some l =>
    match Program.run (app one (fun _ _ => ()) (fun _ => []) false) (·.stopped) 2 plat (fun _ => false) es ⟨l, .run⟩ with
    | .ok (some (s, none)) => some (s.loc.proc.w.io.out, s.phase)
    | _ => none

/-- A character is typed, read, and handled. -/
def stroke (c : Byte) : List (Program.Ev Bool) := [.kb .check, .kb (.arrive c), .kb .ready, .kb .getc, .kb .post, .task] ++ (if c = 10 then [.done] else [])

/-- What is on the screen while a line is typed, and in the end. -/
example : watch ((bs!"reverse a").flatMap stroke) = some (bs!"cli\x1b[0m> r\x1b[0me\x1b[0mv\x1b[0me\x1b[0mr\x1b[0ms\x1b[0me\x1b[0m \x1b[0ma\x1b[0m", .run) ∧
    watch ((bs!"reverse abc\n! 0\nexit\n").flatMap stroke ++ [.ret, .destroy, .kb .check, .kb .ready, .join]) =
      some (bs!"cli\x1b[0m> r\x1b[0me\x1b[0mv\x1b[0me\x1b[0mr\x1b[0ms\x1b[0me\x1b[0m \x1b[0ma\x1b[0mb\x1b[0mc\x1b[0m\r\ncba\ncli\x1b[0m> !\x1b[0m \x1b[0m0\x1b[0m\r\ncba\ncli\x1b[0m> e\x1b[0mx\x1b[0mi\x1b[0mt\x1b[0m\r\nClosing App...\nGoodbye and thanks for all the fish.\n", .over) := by
  decide +kernel

end Verif.Showcase
