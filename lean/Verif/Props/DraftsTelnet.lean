import Verif.Props.Drafts
import Verif.Props.ScreenplayTelnet

set_option linter.unusedSimpArgs false

/-!
# Property C125: editing lines in the program `complete`, from the packets of a client to its screen
-/

namespace Verif.Showcase
open Spec Props
open Terminal (Key)
open Processor (Proc)
open Telnet (Rx Ev Server telnetApp)
open Spec.Telnet (Item Answered)
open Transfer (desk line atDesk SameRun Link NotLeft CalmExit C118_same_partial C118_all_partial C118_connected)

variable {τ : Type}

/-- What is known of a client of the program at any time, `a` being the keys that have been handled. -/
structure Served (E : Env) (d : Desk) (ks a : List Key) (protocol : Str) (q : Proc (St × Bool) τ) : Prop where
  /-- it has been sent a text, with pieces of what the protocol demands between; and a screen on which this text is written looks as if each line had been written at once -/
  screen : ∃ o shown, Take E true d a o ∧ Weave shown protocol q.w.io.out ∧ ∀ base R, (scr base R 0 [] 0).run shown = (scr base R 0 [] 0).run (d.seat.prompt ++ o)
  /-- nothing undefined has happened -/
  defined : q.w.app.1.ub = false
  /-- the program goes on -/
  goes : q.w.app.1.stopped = false
  /-- it is connected until the last key, which ends the session, has been handled -/
  connected : q.w.app.2 = true ↔ a ≠ ks

section
variable (E : Env) (store : τ → List Str → τ) (stored : τ → List Str)

theorem served_of {n : Nat} {tty : Bool} {st : τ} {fuel : Nat} {ks a : List Key} (h : Rehearsal E fuel (Desk.start tty (Book.open n (stored st))) ks) {protocol : Str} {es : List Ev} (ha : a <+: ks)
    (hs : SameRun Link (desk (atDesk (app E store stored true) (leaves true)) n (fuel + 2) (cli st) ⟨⟨false, tty, false⟩, []⟩ a) (line (app E store stored true) (server n) (fuel + 2) (cli st) ⟨⟨false, tty, false⟩, []⟩ es) protocol) :
    ∃ q, line (app E store stored true) (server n) (fuel + 2) (cli st) ⟨⟨false, tty, false⟩, []⟩ es = .ok (q, none) ∧ Served E (Desk.start tty (Book.open n (stored st))) ks a protocol q := by
  obtain ⟨w, h1, h2, h3⟩ := desk_goes E store stored n tty st
  obtain ⟨p, o, g1, g2, g3, g4, g5, g6⟩ := rehearsal_run E store stored (telnet := true) h h1 h2 a ha
  rw [h3, g1] at hs
  generalize hr : line (app E store stored true) (server n) (fuel + 2) (cli st) ⟨⟨false, tty, false⟩, []⟩ es = r at hs
  cases hs with
  | @ended p q n x hq hlk =>
    have hc := C118_connected (app E store stored true) (server _) (calm_exit E store stored) (fuel + 2) (cli st) ⟨⟨false, tty, false⟩, []⟩ es q none hr
    refine ⟨q, rfl, ⟨o, p.w.io.out, g2, hq.out, g3⟩, by rw [hlk.app]; exact g5, ?_, ?_⟩
    · rw [hlk.app]
      cases hst : p.w.app.stopped with
      | false => rfl
      | true => cases (g4.1 hst).1
    · rw [hc, hq.exit, Ne, ← not_congr g6]
      cases p.w.exit <;> simp

/-- The session is not left before the last key. -/
theorem notLeft_rehearsal {n : Nat} {tty : Bool} {st : τ} {fuel : Nat} {ks : List Key} (h : Rehearsal E fuel (Desk.start tty (Book.open n (stored st))) ks) :
    NotLeft (app E store stored true) (leaves true) n (fuel + 2) (cli st) ⟨⟨false, tty, false⟩, []⟩ ks := by
  intro ks' k hk p hp
  refine .inr ⟨calm_exit E store stored, ?_⟩
  obtain ⟨w, h1, h2, h3⟩ := desk_goes E store stored n tty st
  obtain ⟨p', o, g1, _, _, _, _, g6⟩ := rehearsal_run E store stored (telnet := true) h h1 h2 ks' ((List.prefix_append _ _).trans hk)
  rw [h3, g1] at hp
  cases hp
  cases hx : p.w.exit with
  | false => rfl
  | true =>
    have := hk.length_le
    rw [g6.1 hx, List.length_append, List.length_singleton] at this
    omega

/-- **C125** (partial) A client of the program `complete` presses keys, the last of which ends the session; at any time, some of them have been pressed, their bytes arrive with any commands and negotiations between them, cut into packets in any
    way and interleaved in any way with the handling of the keys. Then nothing is undefined, no exception leaves the scheduler, and for some of the first keys (those that have been handled) the client has been sent a text, with nothing but
    pieces of the greeting and the answers to the negotiations between, that makes its screen look as if the prompts, the lines as they were entered, the answers, and the line as it is now had been written without a mistake. It is disconnected
    when, and only when, the last key has been handled; the program goes on. (What is written is sent with CR before each LF, C48.) Missing: as for C124, undefined lines and characters that cannot be printed; what is sent after the last key (it
    may be executed, C74); changes by other sessions (C101). -/
theorem C125_client_partial (fuel : Nat) (n : Nat) (tty : Bool) (st : τ) (ks : List Key) (h : Rehearsal E fuel (Desk.start tty (Book.open n (stored st))) ks) (l : List (Key × Str)) (hl : ∀ x ∈ l, SendsT x.1 x.2) (hk : l.map (·.1) <+: ks)
    (items : List Item) (hv : ∀ i ∈ items, i.Valid ∧ i.NotExtended) (hi : items.flatMap Item.text = l.flatMap (·.2)) (es : List Ev) (hp : packets es <+: items.flatMap Item.wire) :
    ∃ q a protocol answers, line (app E store stored true) (server n) (fuel + 2) (cli st) ⟨⟨false, tty, false⟩, []⟩ es = .ok (q, none) ∧ a <+: l.map (·.1) ∧ Served E (Desk.start tty (Book.open n (stored st))) ks a protocol q ∧
      Answered (items.filterMap Item.request) answers ∧ protocol <+: Spec.Telnet.welcome ++ answers.flatten := by
  obtain ⟨a, protocol, answers, k1, k2, k3, k4⟩ := C118_same_partial (app E store stored true) (server n) (leaves true) rfl (fuel + 2) (cli st) ⟨⟨false, tty, false⟩, []⟩ l hl ((notLeft_rehearsal E store stored h).some hk) items hv hi es hp
  obtain ⟨q, g1, g2⟩ := served_of E store stored h (k1.trans hk) k4
  exact ⟨q, a, protocol, answers, g1, k1, g2, k2, k3⟩

/-- **C125** (partial) When the bytes of all the keys pressed have arrived and enough keys are handled afterwards: the client has been sent what belongs to all of them, the whole greeting, and all the answers. -/
theorem C125_all_partial (fuel : Nat) (n : Nat) (tty : Bool) (st : τ) (ks : List Key) (h : Rehearsal E fuel (Desk.start tty (Book.open n (stored st))) ks) (l : List (Key × Str)) (hl : ∀ x ∈ l, SendsT x.1 x.2) (hk : l.map (·.1) <+: ks)
    (items : List Item) (hv : ∀ i ∈ items, i.Valid ∧ i.NotExtended) (hi : items.flatMap Item.text = l.flatMap (·.2)) (es : List Ev) (hp : packets es = items.flatMap Item.wire) (m : Nat) (hm : l.length ≤ m) :
    ∃ q answers, line (app E store stored true) (server n) (fuel + 2) (cli st) ⟨⟨false, tty, false⟩, []⟩ (es ++ List.replicate m .task) = .ok (q, none) ∧
      Answered (items.filterMap Item.request) answers ∧ Served E (Desk.start tty (Book.open n (stored st))) ks (l.map (·.1)) (Spec.Telnet.welcome ++ answers.flatten) q := by
  obtain ⟨protocol, answers, k1, k2, k3, k4⟩ := C118_all_partial (app E store stored true) (server n) (leaves true) rfl (fuel + 2) (cli st) ⟨⟨false, tty, false⟩, []⟩ l hl ((notLeft_rehearsal E store stored h).some hk) items hv hi es hp m hm
  obtain ⟨q, g1, g2⟩ := served_of E store stored h hk k3
  exact ⟨q, answers, g1, k1, k4 q g1 ▸ g2⟩

/-- **C125** A client that enters a line whose behaviour should be undefined (a sum that is too large, `!` in an empty history), however it has been typed, edited, recalled or completed, and however its bytes arrive, makes the behaviour of the
    whole program undefined. -/
theorem C125_undefined (hq : Quiet E) (he : Decent E) (fuel : Nat) (n : Nat) (tty : Bool) (st : τ) (ks : List Key) (d : Desk) (o : Str)
    (ht : Tidy (Desk.start tty (Book.open n (stored st)))) (hk : Fit E fuel (Desk.start tty (Book.open n (stored st))) ks) (hd : Drafting E (Desk.start tty (Book.open n (stored st))) ks d o)
    (hw : Within E (fuel + 1) d.seat d.text) (hf : Fails E d.seat d.text) (l : List (Key × Str)) (hl : ∀ x ∈ l, SendsT x.1 x.2) (hx : l.map (·.1) = ks ++ [.ret])
    (items : List Item) (hv : ∀ i ∈ items, i.Valid ∧ i.NotExtended) (hi : items.flatMap Item.text = l.flatMap (·.2)) (es : List Ev) (hp : packets es = items.flatMap Item.wire) (m : Nat) (hm : l.length ≤ m) :
    (∃ u, line (app E store stored true) (server n) (fuel + 2) (cli st) ⟨⟨false, tty, false⟩, []⟩ (es ++ List.replicate m .task) = .error (.ub u)) ∨
      ∃ q, line (app E store stored true) (server n) (fuel + 2) (cli st) ⟨⟨false, tty, false⟩, []⟩ (es ++ List.replicate m .task) = .ok (q, none) ∧ q.w.app.1.ub = true := by
  obtain ⟨w, h1, h2, h3⟩ := desk_goes E store stored n tty st
  have hleft : NotLeft (app E store stored true) (leaves true) n (fuel + 2) (cli st) ⟨⟨false, tty, false⟩, []⟩ (l.map (·.1)) := by
    intro ks' k hk' p hp'
    refine .inr ⟨calm_exit E store stored, ?_⟩
    rw [hx] at hk'
    have hpre : ks' <+: ks := by
      refine List.prefix_of_prefix_length_le ((List.prefix_append _ _).trans hk') (List.prefix_append _ _) ?_
      have := hk'.length_le
      simp only [List.length_append, List.length_singleton] at this
      omega
    obtain ⟨q, g1, d', o', _, g3⟩ := fit_going E store stored (telnet := true) hq he ht hk h1 h2 hd hpre
    rw [h3, g1] at hp'
    cases hp'
    exact g3.place.exit
  obtain ⟨protocol, answers, _, _, k3, _⟩ := C118_all_partial (app E store stored true) (server n) (leaves true) rfl (fuel + 2) (cli st) ⟨⟨false, tty, false⟩, []⟩ l hl hleft items hv hi es hp m hm
  rw [show (server n).historySize = n from rfl, hx, h3] at k3
  generalize line (app E store stored true) (server n) (fuel + 2) (cli st) ⟨⟨false, tty, false⟩, []⟩ (es ++ List.replicate m .task) = r at k3
  rcases fail_run E store stored (telnet := true) hq he ht hk h1 h2 hd hw hf with ⟨u, e⟩ | ⟨q, e, hu⟩
  · rw [e] at k3
    cases k3
    exact .inl ⟨u, rfl⟩
  · rw [e] at k3
    cases k3 with
    | ended x hs hlk => exact .inr ⟨_, rfl, by rw [hlk.app]; exact hu⟩

end

/-! ### Examples -/

/-- The keys `pressed` and their bytes. -/
def strokes : List (Key × Str) := [(.ascii b%'r', bs!"r"), (.ascii b%'e', bs!"e"), (.ascii b%'v', bs!"v"), (.ascii b%'x', bs!"x"), (.backspace, [8]), (.ascii 9, [9]), (.ascii b%'a', bs!"a"), (.ascii b%'b', bs!"b"), (.ascii b%'c', bs!"c"),
  (.ret, [13, 0]), (.up, bs!"\x1b[A"), (.ret, [13, 10]), (.eof, [4])]

/-- The hypotheses are met: all of these keys, with a negotiation in the middle of the sequence of the arrow. -/
example : ∃ items : List Item, Rehearsal two 20 (Desk.start true (Book.open 200 [])) pressed ∧ (∀ x ∈ strokes, SendsT x.1 x.2) ∧ strokes.map (·.1) = pressed ∧ (∀ i ∈ items, i.Valid ∧ i.NotExtended) ∧ items.flatMap Item.text = strokes.flatMap (·.2) ∧
    packets [.packet (bs!"revx" ++ [8, 9]), .task, .packet (bs!"abc" ++ [13, 0, 27, 255, 251, 31, 91]), .task, .packet (bs!"A" ++ [13, 10, 4])] = items.flatMap Item.wire := by
  refine ⟨(bs!"revx" ++ [8, 9] ++ bs!"abc" ++ [13, 0, 27]).map Item.data ++ [.option .will 31] ++ (bs!"[A" ++ [13, 10, 4]).map Item.data, rehearsal_pressed, ?_, rfl, ?_, rfl, rfl⟩
  · intro x hx
    simp only [strokes, List.mem_cons, List.not_mem_nil, or_false] at hx
    rcases hx with rfl | rfl | rfl | rfl | rfl | rfl | rfl | rfl | rfl | rfl | rfl | rfl | rfl
    all_goals first | exact .ascii (by unfold PlainT; decide) | exact .bs | exact .enter0 | exact .up | exact .enter10 | exact .eof
  · intro i hi
    simp only [List.mem_append, List.mem_map, List.mem_singleton] at hi
    rcases hi with (⟨c, hc, rfl⟩ | rfl) | ⟨c, hc, rfl⟩
    · simp [Item.Valid, Item.NotExtended]
    · simp [Item.Valid, Item.NotExtended]
    · simp [Item.Valid, Item.NotExtended]

/-- The hypotheses of `C125_undefined` are met: `add 2147483647 1`, after a mistake. -/
example : ∃ d o, ∃ l : List (Key × Str), ∃ items : List Item, Fit two 20 (Desk.start true (Book.open 200 [])) (bs!"add 2147483647 1x".map .ascii ++ [.backspace]) ∧ Drafting two (Desk.start true (Book.open 200 [])) (bs!"add 2147483647 1x".map .ascii ++ [.backspace]) d o ∧
    Within two 21 d.seat d.text ∧ Fails two d.seat d.text ∧ (∀ x ∈ l, SendsT x.1 x.2) ∧ l.map (·.1) = (bs!"add 2147483647 1x".map .ascii ++ [.backspace]) ++ [.ret] ∧ (∀ i ∈ items, i.Valid ∧ i.NotExtended) ∧ items.flatMap Item.text = l.flatMap (·.2) ∧
    packets [.packet bs!"add 21474836", .task, .packet (bs!"47 1x" ++ [8, 13, 0])] = items.flatMap Item.wire := by
  obtain ⟨d, o, h1, h2, h3, h4⟩ := too_large
  refine ⟨d, o, bs!"add 2147483647 1x".map (fun c => (.ascii c, [c])) ++ [(.backspace, [8]), (.ret, [13, 0])], (bs!"add 2147483647 1x" ++ [8, 13, 0]).map Item.data, h1, h2, h3, h4, ?_, rfl, ?_, rfl, rfl⟩
  · intro x hx
    simp only [List.mem_append, List.mem_map, List.mem_cons, List.not_mem_nil, or_false] at hx
    rcases hx with ⟨c, hc, rfl⟩ | rfl | rfl
    · have : ∀ c ∈ bs!"add 2147483647 1x", PlainT c := by unfold PlainT; decide
      exact .ascii (this c (by simpa using hc))
    · exact .bs
    · exact .enter0
  · intro i hi
    obtain ⟨c, hc, rfl⟩ := List.mem_map.1 hi
    have : ∀ c ∈ bs!"add 2147483647 1x" ++ [8, 13, 0], c ≠ 255 := by decide
    have := this c hc
    simp_all [Item.Valid, Item.NotExtended]

/-- A client corrects a mistake, and goes back to the line; it goes left and leaves with Ctrl-D. -/
example : received ([.packet (bs!"reverze" ++ [8, 8] ++ bs!"se abc" ++ [13, 0] ++ bs!"\x1b[A"), .task, .packet (bs!"\x1b[" ++ [255, 251, 31])] ++ List.replicate 17 .task ++ [.packet (bs!"D" ++ [4]), .task, .task]) =
    some (Telnet.greeting ++ bs!"cli> r" ++ [255, 253, 31] ++ bs!"everze\x08 \x08\x08 \x08se abc\r\ncba\ncli> reverse abc\x08Terminating this session...\nGoodbye and thanks for all the fish.\n", false) := by
  decide +kernel

end Verif.Showcase
