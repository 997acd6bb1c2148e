import Verif.Props.Screenplay
import Verif.Props.SameOverTelnet
import Verif.Spec.Wire

set_option linter.unusedSimpArgs false

/-!
# Property C119: the program `complete`, from the packets of a client to what it receives
-/

namespace Verif.Showcase
open Spec Props
open Terminal (Key)
open Processor (Proc)
open Telnet (Rx Ev Server telnetApp)
open Spec.Telnet (Item Answered)
open Transfer (desk line atDesk SameRun Link NotLeft CalmExit C118_same_partial C118_all_partial C118_connected)

variable {τ : Type}

/-- complete.cpp:280-282: the telnet server, which sets an exit action only. -/
def server (n : Nat) : Server St := ⟨none, some (leaves true), n⟩

theorem sent_keys {b s : Str} (hb : Plainly b) (h : Sent b s) : ∃ l : List (Key × Str), (∀ x ∈ l, SendsT x.1 x.2) ∧ l.map (·.1) = b.map keyOf ∧ l.flatMap (·.2) = s := by
  induction h with
  | nil => exact ⟨[], by simp, rfl, rfl⟩
  | @char c b s hc _ ih =>
    obtain ⟨l, h1, h2, h3⟩ := ih (fun c hc => hb c (by simp [hc]))
    have hp : printable c = true := (hb c (by simp)).resolve_right hc
    refine ⟨(.ascii c, [c]) :: l, ?_, by simp [h2, keyOf, hc], by simp [h3]⟩
    intro x hx
    rcases List.mem_cons.1 hx with rfl | hx
    · refine .ascii ?_
      intro hm
      simp only [List.mem_cons, List.not_mem_nil, or_false] at hm
      rcases hm with rfl | rfl | rfl | rfl | rfl | rfl | rfl <;> cases hp
    · exact h1 x hx
  | @enter0 b s _ ih =>
    obtain ⟨l, h1, h2, h3⟩ := ih (fun c hc => hb c (by simp [hc]))
    refine ⟨(.ret, [13, 0]) :: l, ?_, by simp [h2, keyOf], by simp [h3]⟩
    intro x hx
    rcases List.mem_cons.1 hx with rfl | hx
    · exact .enter0
    · exact h1 x hx
  | @enter10 b s _ ih =>
    obtain ⟨l, h1, h2, h3⟩ := ih (fun c hc => hb c (by simp [hc]))
    refine ⟨(.ret, [13, 10]) :: l, ?_, by simp [h2, keyOf], by simp [h3]⟩
    intro x hx
    rcases List.mem_cons.1 hx with rfl | hx
    · exact .enter10
    · exact h1 x hx

section
variable (E : Env) (store : τ → List Str → τ) (stored : τ → List Str)

theorem desk_goes (n : Nat) (tty : Bool) (st : τ) : ∃ w, At (Seat.start tty (Book.open n (stored st))) w ∧ w.io.out = (Seat.start tty (Book.open n (stored st))).prompt ∧
    ∀ fuel ks, desk (atDesk (app E store stored true) (leaves true)) n fuel (cli st) ⟨⟨false, tty, false⟩, []⟩ ks = Processor.run (app E store stored true) fuel ks ⟨w, ⟨[], 0⟩, true⟩ := by
  have hs := at_start (store := store) (stored := stored) (telnet := true) E n tty st
  obtain ⟨w, p1, p2, p3⟩ := prompt_says hs
  have hp : (Seat.start tty (Book.open n (stored st))).prompted = Seat.start tty (Book.open n (stored st)) := by cases tty <;> rfl
  rw [hp] at p2
  refine ⟨w, p2, p3, fun fuel ks => ?_⟩
  have hc : Local.create (app E store stored true) (fun a : Unit => a) () n (cli st) ⟨⟨false, tty, false⟩, []⟩ = (match prompt (session E store stored true n tty st) with
      | .error f => .error f
      | .ok w => .ok (⟨Keyboard.init (fun a : Unit => a) (), ⟨w, ⟨[], 0⟩, true⟩, 0, false, true⟩, none)) := rfl
  rw [p1] at hc
  unfold desk
  rw [show atDesk (app E store stored true) (leaves true) = app E store stored true from rfl, hc]

theorem calm_exit : CalmExit (app E store stored true) (some (leaves true)) := ⟨⟨_, rfl⟩, (by rintro g h s; cases h; rfl), fun _ _ => rfl⟩

/-- What is known of a client of the program at any time, `b` being the characters that have been handled. -/
structure Attended (s : Seat) (lines : List Str) (b protocol : Str) (q : Proc (St × Bool) τ) : Prop where
  /-- it has been sent the first prompt and what belongs to these characters, with pieces of what the protocol demands between -/
  screen : ∃ o, Scene E true s b o ∧ Weave (s.prompt ++ o) protocol q.w.io.out
  /-- nothing undefined has happened -/
  defined : q.w.app.1.ub = false
  /-- the program goes on -/
  goes : q.w.app.1.stopped = false
  /-- it is connected until the last line, which ends the session, has been handled -/
  connected : q.w.app.2 = true ↔ b ≠ enter lines

theorem attended_of {n : Nat} {tty : Bool} {st : τ} {ls : List Str} {x : Str} {fuel : Nat} (h : Play E fuel (Seat.start tty (Book.open n (stored st))) ls x) {b protocol : Str} {es : List Ev} (hb : b <+: enter (ls ++ [x]))
    (hs : SameRun Link (desk (atDesk (app E store stored true) (leaves true)) n (fuel + 1) (cli st) ⟨⟨false, tty, false⟩, []⟩ (b.map keyOf)) (line (app E store stored true) (server n) (fuel + 1) (cli st) ⟨⟨false, tty, false⟩, []⟩ es) protocol) :
    ∃ q, line (app E store stored true) (server n) (fuel + 1) (cli st) ⟨⟨false, tty, false⟩, []⟩ es = .ok (q, none) ∧ Attended E (Seat.start tty (Book.open n (stored st))) (ls ++ [x]) b protocol q := by
  obtain ⟨w, h1, h2, h3⟩ := desk_goes E store stored n tty st
  obtain ⟨p, o, g1, g2, g3, g4, g5, g6⟩ := play (store := store) (stored := stored) (telnet := true) E h.quiet fuel ls h1 (by cases tty <;> rfl) h.lines h.fine h.last b hb
  rw [h3, g1] at hs
  generalize hr : line (app E store stored true) (server n) (fuel + 1) (cli st) ⟨⟨false, tty, false⟩, []⟩ es = r at hs
  cases hs with
  | @ended p q n x hq hlk =>
    have hc := C118_connected (app E store stored true) (server _) (calm_exit E store stored) (fuel + 1) (cli st) ⟨⟨false, tty, false⟩, []⟩ es q none hr
    refine ⟨q, rfl, ⟨o, g2, by rw [← h2, ← g3]; exact hq.out⟩, by rw [hlk.app]; exact g5, ?_, ?_⟩
    · rw [hlk.app]
      cases hst : p.w.app.stopped with
      | false => rfl
      | true => cases (g4.1 hst).1
    · rw [hc, hq.exit, Ne, ← not_congr g6]
      cases p.w.exit <;> simp

/-- The session of a user who types these lines is not left before the last key. -/
theorem notLeft_play {n : Nat} {tty : Bool} {st : τ} {ls : List Str} {x : Str} {fuel : Nat} (h : Play E fuel (Seat.start tty (Book.open n (stored st))) ls x) :
    NotLeft (app E store stored true) (leaves true) n (fuel + 1) (cli st) ⟨⟨false, tty, false⟩, []⟩ ((enter (ls ++ [x])).map keyOf) := by
  intro ks' k hk p hp
  refine .inr ⟨calm_exit E store stored, ?_⟩
  obtain ⟨w, h1, _, h3⟩ := desk_goes E store stored n tty st
  have hle := hk.length_le
  simp only [List.length_append, List.length_cons, List.length_nil, List.length_map] at hle
  have he : ks' = ((enter (ls ++ [x])).take ks'.length).map keyOf := by
    rw [List.map_take]
    exact List.prefix_iff_eq_take.1 ((List.prefix_append _ _).trans hk)
  obtain ⟨p', o, g1, _, _, _, _, g6⟩ := play (store := store) (stored := stored) (telnet := true) E h.quiet fuel ls h1 (by cases tty <;> rfl) h.lines h.fine h.last ((enter (ls ++ [x])).take ks'.length) (List.take_prefix _ _)
  rw [h3, he, g1] at hp
  cases hp
  cases hx : p.w.exit with
  | false => rfl
  | true =>
    have := congrArg List.length (g6.1 hx)
    rw [List.length_take] at this
    omega

/-- **C119** (partial) A client of the program `complete` types lines, the last of which ends the session; at any time, some of it has been typed, the bytes arrive with any commands and negotiations between them, cut into packets in any way and interleaved in
    any way with the handling of the keys. Then nothing is undefined, no exception leaves the scheduler, and for some of the first characters (those that have been handled) the client has been sent the first prompt, each character as it was typed, the
    end of each line, the answer of the table of commands or of the history (C113), and the next prompt, with nothing but pieces of the greeting and the answers to the negotiations between. It is disconnected when, and only when, the last line has been handled; the program goes on.
    (What is written is sent with CR before each LF, C48.) Missing: as for C117, lines for which the behaviour is undefined, and other keys; what is sent after the last line (it may be executed, C74); changes by other sessions (C101). -/
theorem C119_client_partial (fuel : Nat) (n : Nat) (tty : Bool) (st : τ) (ls : List Str) (x : Str) (h : Play E fuel (Seat.start tty (Book.open n (stored st))) ls x) (typed bytes : Str) (ht : typed <+: enter (ls ++ [x])) (hw : Sent typed bytes)
    (items : List Item) (hv : ∀ i ∈ items, i.Valid ∧ i.NotExtended) (hi : items.flatMap Item.text = bytes) (es : List Ev) (hp : packets es <+: items.flatMap Item.wire) :
    ∃ q b protocol answers, line (app E store stored true) (server n) (fuel + 1) (cli st) ⟨⟨false, tty, false⟩, []⟩ es = .ok (q, none) ∧ b <+: typed ∧ Attended E (Seat.start tty (Book.open n (stored st))) (ls ++ [x]) b protocol q ∧
      Answered (items.filterMap Item.request) answers ∧ protocol <+: Spec.Telnet.welcome ++ answers.flatten := by
  have hpl : Plainly typed := fun c hc => play_plainly h c (ht.subset hc)
  obtain ⟨l, l1, l2, l3⟩ := sent_keys hpl hw
  obtain ⟨ks, protocol, answers, k1, k2, k3, k4⟩ := C118_same_partial (app E store stored true) (server n) (leaves true) rfl (fuel + 1) (cli st) ⟨⟨false, tty, false⟩, []⟩ l l1 (by rw [l2]; exact (notLeft_play E store stored h).some (ht.map _)) items hv (by rw [hi, l3]) es hp
  rw [l2] at k1
  have hk : ks = (typed.take ks.length).map keyOf := by
    rw [List.map_take]
    exact List.prefix_iff_eq_take.1 k1
  rw [hk] at k4
  obtain ⟨q, g1, g2⟩ := attended_of E store stored h ((List.take_prefix _ _).trans ht) k4
  exact ⟨q, _, protocol, answers, g1, List.take_prefix _ _, g2, k2, k3⟩

/-- **C119** (partial) When all that has been typed has arrived and enough keys are handled afterwards: the client has been sent what belongs to all of it, the whole greeting, and all the answers. -/
theorem C119_all_partial (fuel : Nat) (n : Nat) (tty : Bool) (st : τ) (ls : List Str) (x : Str) (h : Play E fuel (Seat.start tty (Book.open n (stored st))) ls x) (typed bytes : Str) (ht : typed <+: enter (ls ++ [x])) (hw : Sent typed bytes)
    (items : List Item) (hv : ∀ i ∈ items, i.Valid ∧ i.NotExtended) (hi : items.flatMap Item.text = bytes) (es : List Ev) (hp : packets es = items.flatMap Item.wire) (m : Nat) (hm : typed.length ≤ m) :
    ∃ q answers, line (app E store stored true) (server n) (fuel + 1) (cli st) ⟨⟨false, tty, false⟩, []⟩ (es ++ List.replicate m .task) = .ok (q, none) ∧
      Answered (items.filterMap Item.request) answers ∧ Attended E (Seat.start tty (Book.open n (stored st))) (ls ++ [x]) typed (Spec.Telnet.welcome ++ answers.flatten) q := by
  have hpl : Plainly typed := fun c hc => play_plainly h c (ht.subset hc)
  obtain ⟨l, l1, l2, l3⟩ := sent_keys hpl hw
  have hlen : l.length = typed.length := by simpa using congrArg List.length l2
  obtain ⟨protocol, answers, k1, k2, k3, k4⟩ := C118_all_partial (app E store stored true) (server n) (leaves true) rfl (fuel + 1) (cli st) ⟨⟨false, tty, false⟩, []⟩ l l1 (by rw [l2]; exact (notLeft_play E store stored h).some (ht.map _)) items hv (by rw [hi, l3]) es hp m (by omega)
  rw [l2] at k3
  obtain ⟨q, g1, g2⟩ := attended_of E store stored h ht k3
  exact ⟨q, answers, g1, k1, k4 q g1 ▸ g2⟩

end

/-! ### Examples -/

/-- What a client has been sent, and whether it is connected. -/
def received (es : List Ev) : Option (Str × Bool) :=
  match line (app one (fun _ _ => ()) (fun _ => []) true) (server 100) 2 (cli ()) ⟨⟨false, false, false⟩, []⟩ es with
  | .ok (q, none) => some (q.w.io.out, q.w.app.2)
  | _ => none

/-- Whether the behaviour is undefined after these events. -/
def undone (es : List Ev) : Bool :=
  match line (app one (fun _ _ => ()) (fun _ => []) true) (server 100) 2 (cli ()) ⟨⟨false, false, false⟩, []⟩ es with
  | .ok (q, none) => q.w.app.1.ub
  | .error (.ub _) => true
  | _ => false

/-- **C119** (refuted) Without the hypotheses on the lines: the behaviour of the whole program becomes undefined when a client asks for a sum that is too large, or refers to the history first of all. -/
theorem C119_refuted : undone (.packet (bs!"add 2147483647 1" ++ [13, 0]) :: List.replicate 17 .task) = true ∧ undone (.packet (bs!"! 0" ++ [13, 0]) :: List.replicate 4 .task) = true ∧
    undone (.packet (bs!"add 2147483646 1" ++ [13, 0]) :: List.replicate 17 .task) = false := by
  decide +kernel

/-- A client types while it negotiates, and leaves. -/
example : received ([.packet (bs!"rever" ++ [255, 251, 31] ++ bs!"se"), .task, .task, .packet (bs!" abc" ++ [13, 0] ++ bs!"! 0" ++ [13, 0] ++ bs!"exit" ++ [13])] ++ List.replicate 19 .task) =
      some (Telnet.greeting ++ bs!"cli> " ++ [255, 253, 31] ++ bs!"reverse abc\r\ncba\ncli> ! 0\r\ncba\ncli> exit", true) ∧
    received ([.packet (bs!"rever" ++ [255, 251, 31] ++ bs!"se"), .task, .task, .packet (bs!" abc" ++ [13, 0] ++ bs!"! 0" ++ [13, 0] ++ bs!"exit" ++ [13]), .packet [10]] ++ List.replicate 21 .task) =
      some (Telnet.greeting ++ bs!"cli> " ++ [255, 253, 31] ++ bs!"reverse abc\r\ncba\ncli> ! 0\r\ncba\ncli> exit\r\nTerminating this session...\nGoodbye and thanks for all the fish.\n", false) := by
  decide +kernel

/-- The hypotheses are met. -/
example : ∃ items : List Item, Play one 1 (fresh true) [bs!"reverse abc", bs!"! 0"] bs!"exit" ∧ Sent (enter ([bs!"reverse abc", bs!"! 0"] ++ [bs!"exit"])) (bs!"reverse abc" ++ [13, 0] ++ bs!"! 0" ++ [13, 0] ++ bs!"exit" ++ [13, 10]) ∧ (∀ i ∈ items, i.Valid ∧ i.NotExtended) ∧
    items.flatMap Item.text = bs!"reverse abc" ++ [13, 0] ++ bs!"! 0" ++ [13, 0] ++ bs!"exit" ++ [13, 10] ∧
    packets [.packet (bs!"rever" ++ [255, 251, 31] ++ bs!"se"), .task, .task, .packet (bs!" abc" ++ [13, 0] ++ bs!"! 0" ++ [13, 0] ++ bs!"exit" ++ [13]), .packet [10]] = items.flatMap Item.wire := by
  refine ⟨(bs!"rever").map Item.data ++ [.option .will 31] ++ (bs!"se abc").map Item.data ++ [.data 13, .data 0] ++ (bs!"! 0").map Item.data ++ [.data 13, .data 0] ++ (bs!"exit").map Item.data ++ [.data 13, .data 10], play_reverse, ?_, ?_, rfl, rfl⟩
  · repeat first | exact .nil | refine .char (by decide) ?_ | (refine .enter0 (s := bs!"! 0" ++ [13, 0] ++ bs!"exit" ++ [13, 10]) ?_) | (refine .enter0 (s := bs!"exit" ++ [13, 10]) ?_) | (refine .enter10 ?_)
  · intro i hi
    simp only [List.map_cons, List.map_nil, List.mem_append, List.mem_cons, List.not_mem_nil, or_false] at hi
    rcases hi with (((((((hi | rfl) | hi) | (rfl | rfl)) | hi) | (rfl | rfl)) | hi) | (rfl | rfl))
    · rcases hi with rfl | rfl | rfl | rfl | rfl <;> simp [Item.Valid, Item.NotExtended]
    · simp [Item.Valid, Item.NotExtended]
    · rcases hi with rfl | rfl | rfl | rfl | rfl | rfl <;> simp [Item.Valid, Item.NotExtended]
    · simp [Item.Valid, Item.NotExtended]
    · simp [Item.Valid, Item.NotExtended]
    · rcases hi with rfl | rfl | rfl <;> simp [Item.Valid, Item.NotExtended]
    · simp [Item.Valid, Item.NotExtended]
    · simp [Item.Valid, Item.NotExtended]
    · rcases hi with rfl | rfl | rfl | rfl <;> simp [Item.Valid, Item.NotExtended]
    · simp [Item.Valid, Item.NotExtended]
    · simp [Item.Valid, Item.NotExtended]

end Verif.Showcase
