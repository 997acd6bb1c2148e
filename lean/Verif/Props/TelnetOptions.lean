import Verif.Props.Telnet
import Verif.Spec.TelnetClient

set_option linter.unusedSimpArgs false

/-!
# Properties C47 and C92: telnet options
-/

namespace Verif.Props
open Spec
open Verif.Telnet (Rx onPackets encode)
open Spec.Telnet (Verb Item Client InForce Typed Agreement switch)

/-- The answers to an item, as items. -/
def answerItems : Item → List Item
  | .option .will x => if x = 3 then [.option .will 3] else if x = 31 then [.option .do 31] else [.option .dont x]
  | .option .do x => if x = 1 then [.option .do 1] else if x = 3 then [.option .will 3] else [.option .wont x]
  | _ => []

theorem answer_items (i : Item) : answer i = (answerItems i).flatMap Item.wire := by
  cases i with
  | option v x =>
    cases v with
    | will =>
      simp only [answer, answerItems, Telnet.rxWill]
      split
      · rfl
      · split <;> simp [Telnet.iacCmd, Item.wire, Verb.code]
    | «do» =>
      simp only [answer, answerItems, Telnet.rxDo]
      split
      · rfl
      · split <;> simp [Telnet.iacCmd, Item.wire, Verb.code]
    | _ => rfl
  | _ => rfl

theorem answers_items (items : List Item) : items.flatMap answer = (items.flatMap answerItems).flatMap Item.wire := by
  induction items with
  | nil => rfl
  | cons i items ih => simp only [List.flatMap_cons, List.flatMap_append, answer_items, ih]

theorem encode_no_newline (s : Str) (h : (10 : Byte) ∉ s) : encode s = s := by
  induction s with
  | nil => rfl
  | cons c s ih =>
    have h1 : c ≠ b%'\n' := fun e => h (by simp [e])
    rw [encode, if_neg h1, ih (fun hm' => h (by simp [hm']))]

/-- The item is no request about option 10. -/
def NotTen : Item → Prop
  | .option _ x => x ≠ 10
  | _ => True

theorem answer_no_newline (i : Item) (h : NotTen i) : (10 : Byte) ∉ answer i := by
  cases i with
  | option v x =>
    have hx : x ≠ 10 := h
    cases v with
    | will =>
      simp only [answer, Telnet.rxWill]
      split
      · decide
      · split
        · decide
        · simp [Telnet.iacCmd, Ne.symm hx]
    | «do» =>
      simp only [answer, Telnet.rxDo]
      split
      · decide
      · split
        · decide
        · simp [Telnet.iacCmd, Ne.symm hx]
    | _ => simp [answer]
  | _ => simp [answer]

/-- **C47** (part) The answers exactly: DONT to WILL, except that WILL 3 is answered by WILL 3 and WILL 31 by DO 31; WONT to DO, except that DO 1 is answered by DO 1 and DO 3 by WILL 3; nothing else is
    answered. Missing: options 10 and 255. -/
theorem C47_exact_partial (items : List Item) (hv : ∀ i ∈ items, i.Valid ∧ i.NotExtended ∧ NotTen i) (ps : List Str) (h : ps.flatten = items.flatMap Item.wire) :
    (onPackets Rx.init ps).map (fun r => encode r.2.answer) = .ok ((items.flatMap answerItems).flatMap Item.wire) := by
  rw [onPackets_run, h, rxRun_items items (fun i hi => ⟨(hv i hi).1, (hv i hi).2.1⟩)]
  simp only [Except.map]
  rw [encode_no_newline, answers_items]
  intro hm
  obtain ⟨i, hi, hm⟩ := List.mem_flatMap.1 hm
  exact answer_no_newline i (hv i hi).2.2 hm

example : (onPackets Rx.init [[255, 251], [31, b%'x', 255, 253, 1, 255, 252, 5]]).map (fun r => encode r.2.answer) = .ok [255, 253, 31, 255, 253, 1] := by rfl

/-- **C92** Refuted: of the four requests that are not refused only two are agreed to (DO 31, WILL 3 for DO 3); WILL 3 is answered by WILL 3 and DO 1 by DO 1, which are no agreements but
    requests. -/
theorem C92_agreement_refuted : answerItems (.option .will 3) ≠ [Agreement (.will, 3)] ∧ answerItems (.option .do 1) ≠ [Agreement (.do, 1)] ∧
    (onPackets Rx.init [(Item.option .will 3).wire]).map (fun r => encode r.2.answer) = .ok (Item.option .will 3).wire ∧
    (onPackets Rx.init [(Item.option .do 1).wire]).map (fun r => encode r.2.answer) = .ok (Item.option .do 1).wire :=
  ⟨by decide, by decide, rfl, rfl⟩

/-! ### The conversation after a client has connected -/

/-- What the server sends first: it asks the client for line mode (option 34), sets the mode to "no editing by the client" and offers to echo (option 1). -/
def greetingItems : List Item := [.option .do 34, .sub [34, 1, 0], .option .will 1]

/-- **C92** The bytes written when a client connects are these requests. -/
theorem C92_greeting : Telnet.greeting = greetingItems.flatMap Item.wire ∧ encode Telnet.greeting = Telnet.greeting := ⟨rfl, rfl⟩

/-- A conversation of the client with the session, beginning with what the session has sent: the client answers (while the user types), its bytes arrive in any packets, the session answers to that, and so on
    until nothing is answered. -/
inductive Talk (c : Client) : InForce → List Item → InForce → Prop
  | done {s} : Talk c s [] s
  | round {s sent items ps sent' s'} : sent ≠ [] → Typed (c.receiveAll s sent).2 items → ps.flatten = items.flatMap Item.wire →
      (∀ i ∈ sent', ∃ v x, i = .option v x) → (onPackets Rx.init ps).map (fun r => encode r.2.answer) = .ok (sent'.flatMap Item.wire) →
      Talk c (c.receiveAll s sent).1 sent' s' → Talk c s sent s'

theorem wire_inj (a b : List Item) (ha : ∀ i ∈ a, ∃ v x, i = .option v x) (hb : ∀ i ∈ b, ∃ v x, i = .option v x) (h : a.flatMap Item.wire = b.flatMap Item.wire) : a = b := by
  induction a generalizing b with
  | nil =>
    cases b with
    | nil => rfl
    | cons i b => obtain ⟨v, x, rfl⟩ := hb i (by simp); simp [Item.wire] at h
  | cons i a ih =>
    obtain ⟨v, x, rfl⟩ := ha i (by simp)
    cases b with
    | nil => simp [Item.wire] at h
    | cons j b =>
      obtain ⟨v', x', rfl⟩ := hb j (by simp)
      simp only [List.flatMap_cons, Item.wire, List.cons_append, List.nil_append, List.cons.injEq, true_and] at h
      obtain ⟨h1, rfl, h2⟩ := h
      have : v = v' := by cases v <;> cases v' <;> first | rfl | (exact absurd h1 (by decide))
      rw [this, ih b (fun k hk => ha k (by simp [hk])) (fun k hk => hb k (by simp [hk])) h2]

theorem answerItems_option (i j : Item) (h : j ∈ answerItems i) : ∃ v x, j = .option v x := by
  cases i with
  | option v x =>
    cases v <;> simp only [answerItems] at h
    · split at h
      · simp at h; exact ⟨_, _, h⟩
      · split at h <;> (simp at h; exact ⟨_, _, h⟩)
    · simp at h
    · split at h
      · simp at h; exact ⟨_, _, h⟩
      · split at h <;> (simp at h; exact ⟨_, _, h⟩)
    · simp at h
  | _ => simp [answerItems] at h

theorem typed_answers {answers items : List Item} (h : Typed answers items) : items.flatMap answerItems = answers.flatMap answerItems := by
  unfold Typed at h
  rw [← h]
  clear h
  induction items with
  | nil => rfl
  | cons i items ih =>
    cases i <;> simp [List.filter_cons, answerItems, ih]

/-- A negotiation about an option other than 10 and 255. -/
def Fine : Item → Prop
  | .option _ x => x ≠ 10 ∧ x ≠ 255
  | _ => False

theorem talk_end {c : Client} {s s' : InForce} (h : Talk c s [] s') : s' = s := by
  cases h with
  | done => rfl
  | round h => exact absurd rfl h

/-- In a round the session's answers are determined by those of the client. -/
theorem talk_round {c : Client} {s s' : InForce} {sent : List Item} (hs : sent ≠ []) (ho : ∀ i ∈ (c.receiveAll s sent).2, Fine i)
    (h : Talk c s sent s') : Talk c (c.receiveAll s sent).1 ((c.receiveAll s sent).2.flatMap answerItems) s' := by
  cases h with
  | done => exact absurd rfl hs
  | @round _ _ items ps sent' _ _ ht hp hopt hr hrest =>
    have hv : ∀ i ∈ items, i.Valid ∧ i.NotExtended ∧ NotTen i := by
      intro i hi
      cases i with
      | data c => exact ⟨trivial, trivial, trivial⟩
      | option v x =>
        have hm : Item.option v x ∈ (c.receiveAll s sent).2 := by rw [← ht]; exact List.mem_filter.2 ⟨hi, rfl⟩
        exact ⟨trivial, (ho _ hm).2, (ho _ hm).1⟩
      | command b =>
        have hm : Item.command b ∈ (c.receiveAll s sent).2 := by rw [← ht]; exact List.mem_filter.2 ⟨hi, rfl⟩
        exact (ho _ hm).elim
      | sub b =>
        have hm : Item.sub b ∈ (c.receiveAll s sent).2 := by rw [← ht]; exact List.mem_filter.2 ⟨hi, rfl⟩
        exact (ho _ hm).elim
    have he := C47_exact_partial items hv ps hp
    rw [hr] at he
    injection he with he
    rw [typed_answers ht] at he
    have := wire_inj _ _ hopt (fun i hi => by obtain ⟨j, _, hj⟩ := List.mem_flatMap.1 hi; exact answerItems_option j i hj) he
    rw [← this]
    exact hrest

/-- **C92** (part) Whatever options the client supports, whatever the user types meanwhile and however the bytes are cut into packets: when the conversation about the options ends, the server echoes if and only if
    the client supports this; and the client performs no option at all. So line mode (34), which the server has asked for, is never in force, not even with a client that supports it: see below. -/
theorem C92_conversation_partial (c : Client) (s : InForce) (h : Talk c .none greetingItems s) :
    s.server 1 = c.yours 1 ∧ (∀ x, x ≠ 1 → s.server x = false) ∧ ∀ x, s.client x = false := by
  have key : ∀ m34 m1 y1 : Bool, c.mine 34 = m34 → c.mine 1 = m1 → c.yours 1 = y1 → s.server 1 = y1 ∧ (∀ x, x ≠ 1 → s.server x = false) ∧ ∀ x, s.client x = false := by
    intro m34 m1 y1 e34 e1 ey
    have h1 := talk_round (by simp [greetingItems]) (by
      cases m34 <;> cases y1 <;>
        simp [greetingItems, Client.receiveAll, Client.receive, InForce.none, e34, ey, Fine]) h
    cases m34 <;> cases y1 <;>
      simp [greetingItems, Client.receiveAll, Client.receive, InForce.none, e34, ey, answerItems] at h1
    · rw [talk_end h1]; exact ⟨by simp [switch], fun x hx => by simp [switch, hx], fun x => by simp only [switch]⟩
    · have h2 := talk_round (by simp) (by cases m1 <;> simp [Client.receiveAll, Client.receive, e1, Fine]) h1
      cases m1 <;> simp [Client.receiveAll, Client.receive, e1, answerItems] at h2
      · rw [talk_end h2]; exact ⟨by simp [switch], fun x hx => by simp [switch, hx], fun x => by simp only [switch]⟩
      · have h3 := talk_round (by simp) (by simp [Client.receiveAll, Client.receive, switch, Fine]) h2
        simp [Client.receiveAll, Client.receive, switch, answerItems] at h3
        rw [talk_end h3]; exact ⟨by simp [switch], fun x hx => by simp [switch, hx], fun x => by simp only [switch] <;> ((repeat' split) <;> simp_all)⟩
    · have h2 := talk_round (by simp) (by simp [Client.receiveAll, Client.receive, switch, Fine]) h1
      simp [Client.receiveAll, Client.receive, switch, answerItems] at h2
      rw [talk_end h2]; exact ⟨by simp [switch], fun x hx => by simp [switch, hx], fun x => by simp only [switch] <;> ((repeat' split) <;> simp_all)⟩
    · have h2 := talk_round (by simp) (by cases m1 <;> simp [Client.receiveAll, Client.receive, switch, e1, Fine]) h1
      cases m1 <;> simp [Client.receiveAll, Client.receive, switch, e1, answerItems] at h2
      · rw [talk_end h2]; exact ⟨by simp [switch], fun x hx => by simp [switch, hx], fun x => by simp only [switch] <;> ((repeat' split) <;> simp_all)⟩
      · have h3 := talk_round (by simp) (by simp [Client.receiveAll, Client.receive, switch, Fine]) h2
        simp [Client.receiveAll, Client.receive, switch, answerItems] at h3
        rw [talk_end h3]; exact ⟨by simp [switch], fun x hx => by simp [switch, hx], fun x => by simp only [switch] <;> ((repeat' split) <;> simp_all)⟩
  exact key _ _ _ rfl rfl rfl

/-- A client that supports line mode and echoing by the server; the user types `x` meanwhile. -/
theorem talk_sample : ∃ s, Talk ⟨fun x => x == 34, fun x => x == 1⟩ .none greetingItems s := by
  refine ⟨_, .round (items := [.option .will 34, .data b%'x', .option .do 1]) (ps := [[255, 251, 34, b%'x', 255], [253, 1]]) (sent' := [.option .dont 34, .option .do 1]) (by decide) rfl rfl
    (by simp) rfl (.round (items := [.option .wont 34, .option .wont 1]) (ps := [[255, 252, 34, 255, 252, 1]]) (sent' := []) (by decide) rfl rfl (by simp) rfl .done)⟩

/-- **C92** Refuted: with a client that accepts line mode, as the server asks, the server refuses it: it is not in force in the end. -/
theorem C92_line_mode_refuted : .option .do 34 ∈ greetingItems ∧ ∃ (c : Client) (s : InForce), c.mine 34 = true ∧ Talk c .none greetingItems s ∧ s.client 34 = false ∧ s.server 1 = true := by
  obtain ⟨s, h⟩ := talk_sample
  exact ⟨by simp [greetingItems], _, s, rfl, h, (C92_conversation_partial _ s h).2.2 34, (C92_conversation_partial _ s h).1⟩

end Verif.Props
