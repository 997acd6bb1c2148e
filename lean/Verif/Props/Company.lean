import Verif.Spec.Company
import Verif.Model.Sessions
import Verif.Props.Showcase

set_option linter.unusedSimpArgs false

/-!
# Property C131: the program `complete` with several sessions
-/

namespace Verif.Showcase.Company
open Spec Props
open Sessions (State Shared Own Op)
open Script (Harmless line_same)

variable {τ : Type}

/-! ### The program and its state -/

/-- complete.cpp:268-282: session 0 is the local one, the others are those of clients. -/
def apps (E : Env) (store : τ → List Str → τ) (stored : τ → List Str) (i : Nat) : App St τ := app E store stored (i != 0)

/-- Before there is a session. -/
def opening (st : τ) (own : Nat → Own) : State St τ := ⟨Sessions.shared (cli st), fun _ => false, own⟩

/-- What a move is: the creation of a session with its first prompt (commandprocessor.h:54-62), the execution of a line with the next prompt (107-108), the destruction of the session. -/
def Move.ops (fuel : Nat) : Move → List Op
  | .comes i room tty => [.create i room tty, .enter i, .prompt i]
  | .line i l => [.feed i fuel l, .prompt i]
  | .goes i => [.destroy i]

structure Mutual (H : Hall τ) (sh : Shared St τ) : Prop where
  tree : sh.tree = treeOf H.gone
  others : ∀ i : Nat, i ≠ 15 → i ≠ 16 → sh.dis i = false
  color15 : H.gone = false → sh.dis (15 : Nat) = H.colour
  color16 : H.gone = false → sh.dis (16 : Nat) = !H.colour
  app : sh.app = ⟨H.over, false⟩
  color : sh.color = H.colour
  storage : sh.storage = H.storage

structure Private (g : Guest) (o : Own) : Prop where
  current : o.current = g.place.id
  exit : o.exit = false
  escapes : (o.forced || o.tty) = g.escapes
  hist : History.WF o.hist
  kept : Kept g.book o.hist
  out : o.out = g.screen

def Sits (S : State St τ) (i : Nat) : Chair → Prop
  | .empty => S.live i = false
  | .guest g => S.live i = true ∧ Private g (S.own i)
  | .leaving t => S.live i = true ∧ (S.own i).out = t ∧ (S.own i).exit = true

structure Holds (H : Hall τ) (S : State St τ) : Prop where
  common : Mutual H S.sh
  sits : ∀ i, Sits S i (H.chairs i)

theorem at_of {H : Hall τ} {g : Guest} {S : State St τ} {i : Nat} (hc : Mutual H S.sh) (ho : H.over = false) (hp : Private g (S.own i)) : At (H.seat g) (S.view i) :=
  ⟨hc.tree, hc.others, hc.color15, hc.color16, hp.current, hp.exit, by show S.sh.app = _; rw [hc.app, ho], hc.color, hp.escapes, hp.hist, hp.kept⟩

theorem at_common {s : Seat} {w : W τ} (h : At s w) (ch : Nat → Chair) : Mutual ⟨s.colour, s.gone, w.storage, ch, false⟩ (Sessions.shared w) :=
  ⟨h.tree, h.others, h.color15, h.color16, h.app, h.color, rfl⟩

theorem at_private {s : Seat} {w : W τ} (h : At s w) : Private (.of s w.io.out) (Sessions.owned w) :=
  ⟨h.current, h.exit, h.escapes, h.hist, h.kept, rfl⟩

theorem view_after (S : State St τ) (i : Nat) (w : W τ) : (S.after i w).view i = { w with casts := [] } := by
  obtain ⟨app, tree, dis, used, gen, storage, ⟨⟨c, t, f⟩, out⟩, casts, hist, current, exit, log⟩ := w
  simp only [State.view, State.after, Sessions.shared, Sessions.owned, if_true]

theorem after_after (S : State St τ) (i : Nat) (w w2 : W τ) (h : w2.casts = []) : (S.after i w).after i w2 =
    { S with sh := Sessions.shared w2, own := fun j => if j = i then Sessions.owned w2 else { S.own j with out := (S.own j).out ++ w.casts.flatten } } := by
  simp only [State.after, h, List.flatten_nil, List.append_nil]
  congr 1
  funext j
  by_cases hj : j = i <;> simp [hj]

theorem at_uncast {s : Seat} {w : W τ} (h : At s w) : At s { w with casts := [] } := at_note h w.io [] w.log rfl

theorem sits_hears {S : State St τ} {j : Nat} {c : Chair} (h : Sits S j c) (text : Str) {S' : State St τ} (hl : S'.live j = S.live j) (ho : S'.own j = { S.own j with out := (S.own j).out ++ text }) : Sits S' j (c.hears text) := by
  cases c with
  | empty => exact hl.trans h
  | guest g => exact ⟨hl.trans h.1, by rw [ho]; exact ⟨h.2.current, h.2.exit, h.2.escapes, h.2.hist, h.2.kept, by rw [h.2.out]⟩⟩
  | leaving t => exact ⟨hl.trans h.1, by rw [ho]; show (S.own j).out ++ text = _; rw [h.2.1], by rw [ho]; exact h.2.2⟩

theorem sits_same {S S' : State St τ} {j : Nat} {c : Chair} (h : Sits S j c) (hl : S'.live j = S.live j) (ho : S'.own j = S.own j) : Sits S' j c := by
  cases c with
  | empty => exact hl.trans h
  | guest g => exact ⟨hl.trans h.1, by rw [ho]; exact h.2⟩
  | leaving t => exact ⟨hl.trans h.1, by rw [ho]; exact h.2⟩

section
variable (E : Env) {store : τ → List Str → τ} {stored : τ → List Str}

/-- A session is created. -/
theorem comes_step {H : Hall τ} {S : State St τ} (h : Holds H S) (fuel i room : Nat) (tty : Bool) {deep : Nat} (hm : ¬ Wrong E deep H (.comes i room tty)) :
    ∃ S' H', Sessions.run (apps E store stored) S (Move.ops fuel (.comes i room tty)) = .ok S' ∧ Happens E store stored H (.comes i room tty) H' ∧ Holds H' S' := by
  have ho : H.over = false := by cases hov : H.over with | false => rfl | true => exact absurd (.inl hov) hm
  have he : H.chairs i = .empty := Classical.byContradiction fun x => hm (.inr x)
  have hl : S.live i = false := by have := h.sits i; rw [he] at this; exact this
  let s : Seat := ⟨.root, H.colour, H.gone, tty, Book.open room (stored H.storage)⟩
  let w0 : W τ := newSession (apps E store stored i) room (S.view i) ⟨⟨S.sh.color, tty, false⟩, []⟩
  let S1 : State St τ := { S with live := fun j => if j = i then true else S.live j, own := fun j => if j = i then Sessions.owned w0 else S.own j }
  have e1 : Sessions.step (apps E store stored) S (.create i room tty) = .ok S1 := by simp only [Sessions.step, hl]; rfl
  have v1 : S1.view i = w0 := by simp only [State.view, S1, if_true]; rfl
  have a0 : At s w0 := by
    have hst : S.sh.storage = H.storage := h.common.storage
    refine ⟨h.common.tree, h.common.others, h.common.color15, h.common.color16, ?_, rfl, ?_, h.common.color, ?_, ?_, ?_⟩
    · show S.sh.tree.root.id = _
      rw [h.common.tree]; rfl
    · show S.sh.app = _
      rw [h.common.app, ho]
    · show (false || tty) = tty
      simp
    · show History.WF (History.loadCommands (History.init room) (stored S.sh.storage))
      exact (C33_new_session_ready room _).1
    · show Kept (Book.open room (stored H.storage)) (History.loadCommands (History.init room) (stored S.sh.storage))
      rw [hst]; exact kept_start room _
  have e2 : Sessions.step (apps E store stored) S1 (.enter i) = .ok (S1.after i w0) := by
    have : S1.live i = true := by simp [S1]
    simp only [Sessions.step, Op.who, this, if_true, Sessions.work, v1]
    rfl
  obtain ⟨w2, p1, p2, p3⟩ := prompt_says (at_uncast a0)
  obtain ⟨q1, q2⟩ := prompt_quiet p1
  have e3 : Sessions.step (apps E store stored) (S1.after i w0) (.prompt i) = .ok ((S1.after i w0).after i w2) := by
    have : (S1.after i w0).live i = true := by simp [S1, State.after]
    simp only [Sessions.step, Op.who, this, if_true, Sessions.work, view_after, p1]
  have hout : w2.io.out = s.prompt := by rw [p3]; rfl
  refine ⟨(S1.after i w0).after i w2, _, by simp only [Move.ops, Sessions.run, e1, e2, e3], .comes ho he rfl, ?_, ?_⟩
  · rw [after_after _ _ _ _ q1]
    have := at_common p2 (fun j => if j = i then .guest (.of s.prompted s.prompt) else H.chairs j)
    have hs : w2.storage = H.storage := q2.trans h.common.storage
    exact ⟨this.tree, this.others, this.color15, this.color16, by rw [this.app]; show _ = (⟨H.over, false⟩ : St); rw [ho], this.color, hs⟩
  · intro j
    rw [after_after _ _ _ _ q1]
    by_cases hj : j = i
    · subst hj
      have := at_private p2
      rw [hout] at this
      simp only [Hall.put, if_true]
      exact ⟨by simp [S1], by simpa using this⟩
    · simp only [Hall.put, hj, if_false]
      refine sits_same (h.sits j) (by simp [S1, hj]) ?_
      have : w0.casts = [] := rfl
      simp [S1, hj, this]

/-- What is in the history after a line: what was, and the line. -/
theorem answer_mem {E : Env} {s s' : Seat} {l t : Str} (h : Answer E s l s' t) : ∀ c ∈ s'.book.entries, c ∈ s.book.entries ∨ c = l := by
  induction h with
  | blank _ => exact fun c hc => .inl hc
  | line h => exact fun c hc => mem_record (by have e := line_book _ h; rw [e] at hc; exact hc)
  | history _ => exact fun c hc => mem_record hc
  | again _ h2 _ ih =>
    intro c hc
    rcases ih c hc with h | rfl
    · exact .inl (mem_skipped h)
    · exact .inl (mem_skipped (mem_listing h2))
  | unknown _ _ => exact fun c hc => .inl (mem_skipped hc)

/-- A line is entered. -/
theorem line_happens (hq : Quiet E) {H : Hall τ} {S : State St τ} (h : Holds H S) (fuel i : Nat) (l : Str) (hm : ¬ Wrong E fuel H (.line i l)) :
    ∃ S' H', Sessions.run (apps E store stored) S (Move.ops (fuel + 1) (.line i l)) = .ok S' ∧ Happens E store stored H (.line i l) H' ∧ Holds H' S' := by
  have ho : H.over = false := by cases hov : H.over with | false => rfl | true => exact absurd (.inl hov) hm
  obtain ⟨g, hg⟩ : ∃ g, H.chairs i = .guest g := Classical.byContradiction fun x => hm (.inr (.inl fun g hg => x ⟨g, hg⟩))
  have hnf : ¬ Fails E (H.seat g) l := fun x => hm (.inr (.inr ⟨g, hg, .inl x⟩))
  have hin : Within E fuel (H.seat g) l := Classical.byContradiction fun x => hm (.inr (.inr ⟨g, hg, .inr x⟩))
  obtain ⟨hl, hp⟩ : S.live i = true ∧ Private g (S.own i) := by have := h.sits i; rw [hg] at this; exact this
  have hat := at_of h.common ho hp
  have deep := answer_deep (store := store) (stored := stored) (telnet := i != 0) E hq fuel 0 hat hin
  rw [show 0 + fuel + 1 = fuel + 1 by omega] at deep
  rcases deep with ⟨w', saved, e1, e2, e3, e4, e5, e6⟩ | ⟨e1, _⟩ | ⟨w', s', t, _, e2, e3, e4, e5, e6⟩
  · have s1 := e6.saved
    have f1 : Sessions.step (apps E store stored) S (.feed i (fuel + 1) l) = .ok (S.after i w') := by
      have : feed (apps E store stored i) (fuel + 1) l (S.view i) = .ok (w', none) := e2
      simp only [Sessions.step, Op.who, hl, if_true, Sessions.work, this]
    have hx : ({ w' with casts := [] } : W τ).exit = true := e4
    have f2 : Sessions.step (apps E store stored) (S.after i w') (.prompt i) = .ok ((S.after i w').after i { w' with casts := [] }) := by
      have : (S.after i w').live i = true := hl
      simp only [Sessions.step, Op.who, this, if_true, Sessions.work, view_after, prompt, hx]
    have hc0 : w'.casts = [] := e6.casts
    refine ⟨(S.after i w').after i { w' with casts := [] }, _, by simp only [Move.ops, Sessions.run, f1, f2], .quits (saved := saved) ho hg e1, ?_, ?_⟩
    · rw [after_after _ _ _ _ rfl]
      have hc := h.common
      refine ⟨?_, ?_, ?_, ?_, ?_, ?_, ?_⟩
      · exact e6.tree.trans hc.tree
      · intro k h1 h2; show w'.dis k = false; rw [e6.dis]; exact hc.others k h1 h2
      · intro h1; show w'.dis _ = _; rw [e6.dis]; exact hc.color15 h1
      · intro h1; show w'.dis _ = _; rw [e6.dis]; exact hc.color16 h1
      · show w'.app = (⟨i == 0, false⟩ : St)
        rw [e5]; cases i <;> rfl
      · exact e6.color.trans hc.color
      · show w'.storage = store H.storage saved
        rw [s1]; show store S.sh.storage saved = _; rw [hc.storage]
    · intro j
      rw [after_after _ _ _ _ rfl]
      by_cases hj : j = i
      · subst hj
        simp only [Hall.put, if_true]
        refine ⟨hl, ?_, ?_⟩
        · simp only [if_true]
          show w'.io.out = _
          rw [e3, ← hp.out]; rfl
        · simp only [if_true]
          exact e4
      · simp only [Hall.put, hj, if_false]
        refine sits_same (h.sits j) rfl ?_
        simp [hj, hc0]
  · exact absurd e1 hnf
  · obtain ⟨ts, t1, t2, t3⟩ := e6
    have f1 : Sessions.step (apps E store stored) S (.feed i (fuel + 1) l) = .ok (S.after i w') := by
      have : feed (apps E store stored i) (fuel + 1) l (S.view i) = .ok (w', none) := e2
      simp only [Sessions.step, Op.who, hl, if_true, Sessions.work, this]
    obtain ⟨w2, p1, p2, p3⟩ := prompt_says (at_uncast e4)
    obtain ⟨q1, q2⟩ := prompt_quiet p1
    have f2 : Sessions.step (apps E store stored) (S.after i w') (.prompt i) = .ok ((S.after i w').after i w2) := by
      have : (S.after i w').live i = true := hl
      simp only [Sessions.step, Op.who, this, if_true, Sessions.work, view_after, p1]
    have hs : w2.storage = H.storage := q2.trans (t2.trans h.common.storage)
    have hc0 : w'.casts = ts := t1
    have hsaid : Said E (H.seat g) l w'.casts.flatten := by
      rw [hc0]
      rcases t3 with ⟨rfl, t4⟩ | ⟨t, rfl, t4⟩
      · exact .inr ⟨rfl, t4⟩
      · exact .inl (by simpa using t4)
    have hout : w2.io.out = g.screen ++ t ++ s'.prompt := by
      rw [p3]; show w'.io.out ++ _ = _; rw [e5, ← hp.out]; rfl
    refine ⟨(S.after i w').after i w2, _, by simp only [Move.ops, Sessions.run, f1, f2], .answer ho hg e3 hsaid, ?_, ?_⟩
    · rw [after_after _ _ _ _ q1]
      have := at_common p2 H.chairs
      exact ⟨this.tree, this.others, this.color15, this.color16, by rw [this.app]; show _ = (⟨H.over, false⟩ : St); rw [ho], this.color, hs⟩
    · intro j
      rw [after_after _ _ _ _ q1]
      by_cases hj : j = i
      · subst hj
        have := at_private p2
        rw [hout] at this
        simp only [if_true]
        exact ⟨hl, by simpa using this⟩
      · simp only [hj, if_false]
        exact sits_hears (h.sits j) _ rfl (by simp [hj])

/-- A session is destroyed. -/
theorem goes_step {H : Hall τ} {S : State St τ} (h : Holds H S) (fuel i : Nat) {deep : Nat} (hm : ¬ Wrong E deep H (.goes i)) :
    ∃ S' H', Sessions.run (apps E store stored) S (Move.ops fuel (.goes i)) = .ok S' ∧ Happens E store stored H (.goes i) H' ∧ Holds H' S' := by
  have ho : H.over = false := by cases hov : H.over with | false => rfl | true => exact absurd (.inl hov) hm
  refine ⟨_, _, rfl, .goes ho (fun x => hm (.inr x)), ⟨h.common.tree, h.common.others, h.common.color15, h.common.color16, h.common.app, h.common.color, h.common.storage⟩, fun j => ?_⟩
  · by_cases hj : j = i
    · subst hj
      simp only [Hall.put, if_true]
      show (if j = j then false else _) = false
      simp
    · simp only [Hall.put, hj, if_false]
      exact sits_same (h.sits j) (by simp [hj]) rfl

/-! ### One thing after the other -/

/-- After some of it, the next thing makes no sense, or is undefined, or a line that refers through more than so many lines of the history. -/
def Spoilt (E : Env) (store : τ → List Str → τ) (stored : τ → List Str) (deep : Nat) (H : Hall τ) (ms : List Move) : Prop :=
  ∃ a m b H', ms = a ++ m :: b ∧ Evening E store stored H a H' ∧ Wrong E deep H' m

theorem run_append (A : Nat → App St τ) : ∀ (a b : List Op) (S S1 : State St τ), Sessions.run A S a = .ok S1 → Sessions.run A S (a ++ b) = Sessions.run A S1 b
  | [], b, S, S1, h => by cases h; rfl
  | op :: a, b, S, S1, h => by
    simp only [Sessions.run, List.cons_append] at h ⊢
    cases hs : Sessions.step A S op with
    | error f => rw [hs] at h; cases h
    | ok S2 => rw [hs] at h; exact run_append A a b S2 S1 h

theorem evening_holds (hq : Quiet E) (fuel : Nat) : ∀ (ms : List Move) (H : Hall τ) (S : State St τ), Holds H S → ¬ Spoilt E store stored fuel H ms →
    ∃ S' H', Sessions.run (apps E store stored) S (ms.flatMap (Move.ops (fuel + 1))) = .ok S' ∧ Evening E store stored H ms H' ∧ Holds H' S'
  | [], H, S, h, _ => ⟨S, H, rfl, .nil, h⟩
  | m :: ms, H, S, h, hw => by
    have h1 : ¬ Wrong E fuel H m := fun x => hw ⟨[], m, ms, H, rfl, .nil, x⟩
    have one : ∃ S' H', Sessions.run (apps E store stored) S (Move.ops (fuel + 1) m) = .ok S' ∧ Happens E store stored H m H' ∧ Holds H' S' := by
      cases m with
      | comes i room tty => exact comes_step E h (fuel + 1) i room tty h1
      | line i l => exact line_happens E hq h fuel i l h1
      | goes i => exact goes_step E h (fuel + 1) i h1
    obtain ⟨S1, H1, e1, e2, e3⟩ := one
    obtain ⟨S2, H2, g1, g2, g3⟩ := evening_holds hq fuel ms H1 S1 e3 (by
      rintro ⟨a, x, b, H', rfl, k1, k2⟩
      exact hw ⟨m :: a, x, b, H', rfl, .cons e2 k1, k2⟩)
    refine ⟨S2, H2, ?_, .cons e2 g2, g3⟩
    rw [List.flatMap_cons, run_append _ _ _ _ _ e1, g1]

theorem opening_holds (st : τ) (own : Nat → Own) : Holds (Hall.init st) (opening st own) :=
  ⟨⟨rfl, fun i _ h => by show (i == 16) = false; simpa using h, fun _ => rfl, fun _ => rfl, rfl, rfl, rfl⟩, fun _ => rfl⟩

end

/-- What can be seen of a session. -/
def Looks1 (S : State St τ) (i : Nat) : Chair → Prop
  | .empty => S.live i = false
  | .guest g => S.live i = true ∧ (S.own i).out = g.screen ∧ (S.own i).exit = false
  | .leaving t => S.live i = true ∧ (S.own i).out = t ∧ (S.own i).exit = true

theorem sits_looks {S : State St τ} {i : Nat} {c : Chair} (h : Sits S i c) : Looks1 S i c := by
  cases c with
  | empty => exact h
  | guest g => exact ⟨h.1, h.2.out, h.2.exit⟩
  | leaving t => exact h

/-- **C131** (partial) Sessions of the program `complete` come and go, and lines are entered in them in any order. What is on the stream of every session is what the table of commands and its own history say for its lines, with the colours that the last one has
    chosen in whatever session, and what others have said to all. Missing: lines for which the behaviour is undefined (`C131_undefined`), which includes those with negative characters, and lines that refer to themselves in the history, or through more lines
    than there is room on the stack for. -/
theorem C131_evening_partial (E : Env) (hq : Quiet E) (store : τ → List Str → τ) (stored : τ → List Str) (st : τ) (own : Nat → Own) (fuel : Nat) (ms : List Move) (hw : ¬ Spoilt E store stored fuel (Hall.init st) ms) :
    ∃ S' H', Sessions.run (apps E store stored) (opening st own) (ms.flatMap (Move.ops (fuel + 1))) = .ok S' ∧ Evening E store stored (Hall.init st) ms H' ∧
      S'.sh.app = ⟨H'.over, false⟩ ∧ S'.sh.storage = H'.storage ∧ ∀ i, Looks1 S' i (H'.chairs i) := by
  obtain ⟨S', H', e1, e2, e3⟩ := evening_holds (store := store) (stored := stored) E hq fuel ms _ (opening st own) (opening_holds st own) hw
  exact ⟨S', H', e1, e2, e3.common.app, e3.common.storage, fun i => sits_looks (e3.sits i)⟩

/-- **C131** (refuted, in general) If then somebody enters a line that asks for a sum that is too large, or refers to a history that is empty, the behaviour of the whole program is undefined, for all sessions. -/
theorem C131_undefined (E : Env) (hq : Quiet E) (store : τ → List Str → τ) (stored : τ → List Str) (st : τ) (own : Nat → Own) (fuel : Nat) (ms : List Move) (hw : ¬ Spoilt E store stored fuel (Hall.init st) ms) :
    ∃ S' H', Sessions.run (apps E store stored) (opening st own) (ms.flatMap (Move.ops (fuel + 1))) = .ok S' ∧ Evening E store stored (Hall.init st) ms H' ∧ S'.sh.app.ub = false ∧
      ∀ i g l, H'.over = false → H'.chairs i = .guest g → Within E fuel (H'.seat g) l → Fails E (H'.seat g) l →
        (∃ u, Sessions.step (apps E store stored) S' (.feed i (fuel + 1) l) = .error (.ub u)) ∨ ∃ S'', Sessions.step (apps E store stored) S' (.feed i (fuel + 1) l) = .ok S'' ∧ S''.sh.app.ub = true := by
  obtain ⟨S', H', e1, e2, e3⟩ := evening_holds (store := store) (stored := stored) E hq fuel ms _ (opening st own) (opening_holds st own) hw
  refine ⟨S', H', e1, e2, by rw [e3.common.app], ?_⟩
  intro i g l ho hg hh hf
  obtain ⟨hlv, hp⟩ : S'.live i = true ∧ Private g (S'.own i) := by have := e3.sits i; rw [hg] at this; exact this
  have deep := answer_deep (store := store) (stored := stored) (telnet := i != 0) E hq fuel 0 (at_of e3.common ho hp) hh
  rw [show 0 + fuel + 1 = fuel + 1 by omega] at deep
  rcases deep with ⟨_, _, k1, _⟩ | ⟨_, k⟩ | ⟨_, _, _, k1, _⟩
  · exact absurd (saves_quits k1) (fails_no_quit hf)
  · rcases k with ⟨w', k1, k2⟩ | ⟨u, k1⟩
    · refine .inr ⟨S'.after i w', ?_, k2⟩
      have : feed (apps E store stored i) (fuel + 1) l (S'.view i) = .ok (w', none) := k1
      simp only [Sessions.step, Op.who, hlv, if_true, Sessions.work, this]
    · refine .inl ⟨u, ?_⟩
      have : feed (apps E store stored i) (fuel + 1) l (S'.view i) = .error (.ub u) := k1
      simp only [Sessions.step, Op.who, hlv, if_true, Sessions.work, this]
  · exact absurd hf k1

/-! ### Examples -/

def nobody : Own := ⟨false, false, [], History.init 0, 0, false, []⟩

/-- What the sessions have written, when these moves have been made. -/
def party (ms : List Move) (n : Nat) : Option (St × List (Bool × Str × Bool)) :=
  match Sessions.run (apps one (fun _ _ => ()) (fun _ => [])) (opening () (fun _ => nobody)) (ms.flatMap (Move.ops 2)) with
  | .ok S => some (S.sh.app, (List.range n).map fun i => (S.live i, (S.own i).out, (S.own i).exit))
  | .error _ => none

/-- A client switches the colours on, and the next prompt of the local user is green. They say something to all, and all hear it, also the client that has left the menu. The client who comes later has a green prompt, too. -/
example : party [.comes 0 9 false, .comes 1 9 false, .line 1 bs!"color", .line 0 bs!"hello_everysession", .line 1 bs!"sub", .comes 2 9 false, .line 2 bs!"nocolor", .line 1 bs!".. hello_everysession", .line 1 bs!"exit", .line 2 bs!"hello_everysession", .goes 1] 3 = some (⟨false, false⟩,
    [(true, bs!"cli> Hello, everybody\n\x1b[32m\x1b[1mcli\x1b[0m> Hello, everybody\nHello, everybody\n", false),
     (false, bs!"cli> Colors ON\n\x1b[32m\x1b[1mcli\x1b[0m> Hello, everybody\n\x1b[32m\x1b[1msubmenu\x1b[0m> Hello, everybody\nsubmenu\x1b[0m> Terminating this session...\nGoodbye and thanks for all the fish.\nHello, everybody\n", true),
     (true, bs!"\x1b[32m\x1b[1mcli\x1b[0m> Colors OFF\ncli\x1b[0m> Hello, everybody\nHello, everybody\ncli\x1b[0m> ", false)]) := by
  decide +kernel

/-- The commands that a client removes are gone for all. -/
example : party [.comes 0 9 false, .comes 1 9 false, .line 1 bs!"removecmds", .line 0 bs!"color"] 1 = some (⟨false, false⟩, [(true, bs!"cli> Unknown command or incorrect parameters: color.\ncli> ", false)]) := by decide +kernel

/-- What is in the storage (of at most 4 lines), when these moves have been made: the lines that were entered in the sessions that have ended, in the order in which they ended. -/
def kept (ms : List Move) : Option (List Str) :=
  match Sessions.run (apps one (fun s cmds => lastN 4 (s ++ cmds)) id) (opening [] (fun _ => nobody)) (ms.flatMap (Move.ops 2)) with
  | .ok S => some S.sh.storage
  | .error _ => none

example : kept [.comes 0 9 false, .comes 1 9 false, .line 1 bs!"hello", .line 0 bs!"sub", .line 0 bs!"sub", .line 1 bs!"! 0", .line 1 bs!"exit", .comes 2 9 false, .line 2 bs!"! 0"] = some [bs!"hello", bs!"exit"] := by decide +kernel
example : kept [.comes 0 9 false, .comes 1 9 false, .line 1 bs!"hello", .line 1 bs!"exit", .comes 2 9 false, .line 2 bs!"! 0", .line 2 bs!"exit", .line 0 bs!"exit"] = some [bs!"exit", bs!"hello", bs!"exit", bs!"exit"] := by decide +kernel

/-- **C131** (refuted) A client makes the behaviour of the program undefined, also for the local user. -/
theorem C131_refuted : party [.comes 0 9 false, .comes 1 9 false, .line 1 bs!"add 2147483647 1", .line 0 bs!"exit"] 1 = some (⟨true, true⟩, [(true, bs!"cli> Closing App...\nGoodbye and thanks for all the fish.\n", true)]) ∧
    party [.comes 0 9 false, .comes 1 9 false, .line 1 bs!"! 0"] 1 = none := ⟨by decide +kernel, by rfl⟩

theorem spoilt_cons {E : Env} {store : τ → List Str → τ} {stored : τ → List Str} {deep : Nat} {H : Hall τ} {m : Move} {ms : List Move} (h1 : ¬ Wrong E deep H m) (h2 : ∀ H', Happens E store stored H m H' → ¬ Spoilt E store stored deep H' ms) : ¬ Spoilt E store stored deep H (m :: ms) := by
  rintro ⟨a, x, b, H', e, k1, k2⟩
  cases a with
  | nil => cases e; cases k1; exact h1 k2
  | cons y a =>
    cases e
    cases k1 with
    | cons g1 g2 => exact h2 _ g1 ⟨a, x, b, H', rfl, g2, k2⟩

theorem spoilt_nil {E : Env} {store : τ → List Str → τ} {stored : τ → List Str} {deep : Nat} {H : Hall τ} : ¬ Spoilt E store stored deep H [] := by rintro ⟨a, x, b, H', e, _⟩; simp at e

/-- The hypotheses of the theorems are satisfiable: the local user and a client, who says something to all; and the local user hears it. -/
example : ¬ Spoilt one (fun _ _ => ()) (fun _ => []) 1 (Hall.init ()) [.comes 0 9 false, .comes 1 9 false, .line 1 bs!"hello_everysession"] ∧
    ∃ H', Evening one (fun _ _ => ()) (fun _ => []) (Hall.init ()) [.comes 0 9 false, .comes 1 9 false, .line 1 bs!"hello_everysession"] H' ∧ H'.chairs 0 = .guest ⟨.root, false, Book.open 9 [], bs!"cli> Hello, everybody\n"⟩ := by
  have hl : Lex.Line bs!"hello_everysession" [bs!"hello_everysession"] := (split_iff _ _).1 rfl
  have hd : ∀ s : Seat, Does one s .root [bs!"hello_everysession"] (.announces bs!"Hello, everybody\n") := fun s => .here (does := plain (.announces bs!"Hello, everybody\n")) (by simp [rows]) ⟨rfl, rfl⟩
  have hn : ¬ Bang bs!"hello_everysession" := by
    rintro ⟨n, a, h, _⟩
    exact absurd (congrArg List.head? (line_same hl h)) (by simp)
  have hf : ∀ s : Seat, s.place = .root → ¬ Fails one s bs!"hello_everysession" := by
    intro s hs h
    cases h with
    | sum h => exact not_over hl (show Does one (s.recorded _) (s.recorded _).place _ _ by rw [show (s.recorded _).place = .root from hs]; exact hd _) (by simp) h
    | again h => exact hn ⟨_, h⟩
    | empty h => exact hn h
  have hc : ∀ {H H' : Hall Unit} {i : Nat}, Happens one (fun _ _ => ()) (fun _ => []) H (.comes i 9 false) H' → H'.over = false ∧ (∀ j, j ≠ i → H'.chairs j = H.chairs j) ∧ ∃ g, H'.chairs i = .guest g ∧ g.place = .root := by
    intro H H' i h
    cases h with
    | comes h1 h2 h3 => subst h3; exact ⟨h1, fun j hj => by simp [Hall.put, hj], _, by simp [Hall.put]; rfl, rfl⟩
  refine ⟨spoilt_cons ?_ fun H1 k1 => spoilt_cons ?_ fun H2 k2 => spoilt_cons ?_ fun _ _ => spoilt_nil, ?_⟩
  · rintro (h | h)
    · cases h
    · exact h rfl
  · obtain ⟨a1, a2, _⟩ := hc k1
    rintro (h | h)
    · rw [a1] at h; cases h
    · exact h (a2 1 (by decide))
  · obtain ⟨a1, a2, g, a3, a4⟩ := hc k2
    rintro (h | h | ⟨g', h, h'⟩)
    · rw [a1] at h; cases h
    · exact h g a3
    · rw [a3] at h; cases h
      exact h'.elim (hf _ a4) fun k => k (.plain (by unfold Readable; decide) hn)
  · refine ⟨_, .cons (.comes rfl rfl rfl) (.cons (.comes rfl rfl rfl) (.cons (.answer rfl rfl (.line (.does hl (hd _) (by simp))) (.inl (.here hl (hd _)))) .nil)), ?_⟩
    decide +kernel

end Verif.Showcase.Company
