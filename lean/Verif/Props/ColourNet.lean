import Verif.Props.Colour
import Verif.Model.Net

set_option linter.unusedSimpArgs false

/-!
# Property C97 for telnet sessions
-/

namespace Verif.Props
open Verif.Spec Verif.Processor
open Telnet (Server Tel telnetApp)
open Net (Life)

variable {σ τ : Type}

/-- The server whose exit action does not switch colours. -/
def muteServer (S : Server σ) : Server σ := { S with exitAction := S.exitAction.map (fun f s => (f s).mute) }

theorem mute_telnet (A : App σ τ) (server : Option (σ → Effect σ)) (alive : Bool) :
    (telnetApp A server alive).mute = telnetApp A.mute (server.map (fun f s => (f s).mute)) alive := by
  unfold App.mute telnetApp
  simp only [App.mk.injEq, true_and, Option.map_map, and_true]
  refine ⟨rfl, rfl, rfl, rfl, rfl, rfl, ?_⟩
  simp only [Option.map_some, Option.some.injEq]
  funext s
  cases server with
  | none => rfl
  | some f =>
    simp only [Telnet.exitAction, Option.map_some]
    have h1 : (f s.1).mute.exn = (f s.1).exn := rfl
    have h2 : (f s.1).mute.app = (f s.1).app := rfl
    rw [h1, h2]
    split
    · rfl
    · split
      · rfl
      · split <;> rfl

/-- The sessions differ at most in the streams. -/
structure HueT (s t : Tel σ τ) : Prop where
  proc : HueP s.proc t.proc
  rest : t = { s with proc := t.proc }

theorem hue_byte {s t : Tel σ τ} (h : HueT s t) (c : Byte) : (∃ f, Telnet.byte s c = .error f ∧ Telnet.byte t c = .error f) ∨ ∃ s' t', Telnet.byte s c = .ok s' ∧ Telnet.byte t c = .ok t' ∧ HueT s' t' := by
  obtain ⟨rx, step, queue, p⟩ := s
  obtain ⟨rx', step', queue', q⟩ := t
  obtain ⟨hp, hr⟩ := h
  simp only [Tel.mk.injEq, and_true] at hr
  obtain ⟨rfl, rfl, rfl⟩ := hr
  simp only [Telnet.byte, bind, Except.bind]
  cases Telnet.consume rx' c with
  | error f => exact .inl ⟨f, rfl, rfl⟩
  | ok r =>
    obtain ⟨rx, r⟩ := r
    have k : HueP ({ p with w := p.w.put r.answer } : Proc σ τ) { q with w := q.w.put r.answer } := ⟨hue_put keeps_tinted hp.w _, hp.term, hp.active⟩
    simp only
    split
    · split
      · exact .inr ⟨_, _, rfl, rfl, ⟨k, rfl⟩⟩
      · exact .inr ⟨_, _, rfl, rfl, ⟨k, rfl⟩⟩
    · exact .inr ⟨_, _, rfl, rfl, ⟨k, rfl⟩⟩

theorem hue_received : ∀ (d : Str) {s t : Tel σ τ}, HueT s t → (∃ f, Telnet.received s d = .error f ∧ Telnet.received t d = .error f) ∨ ∃ s' t', Telnet.received s d = .ok s' ∧ Telnet.received t d = .ok t' ∧ HueT s' t'
  | [], s, t, h => .inr ⟨s, t, rfl, rfl, h⟩
  | c :: d, s, t, h => by
    simp only [Telnet.received, bind, Except.bind]
    rcases hue_byte h c with ⟨f, h1, h2⟩ | ⟨s', t', h1, h2, h3⟩
    · rw [h1, h2]; exact .inl ⟨f, rfl, rfl⟩
    · rw [h1, h2]; exact hue_received d h3

structure HueL (s t : Life σ τ) : Prop where
  tel : HueT s.tel t.tel
  rest : t = { s with tel := t.tel }

def TintedNet (r r' : Except Fault (Option (Life σ τ × Option Exn))) : Prop :=
  (∃ f, r = .error f ∧ r' = .error f) ∨ (r = .ok none ∧ r' = .ok none) ∨ ∃ s t x, r = .ok (some (s, x)) ∧ r' = .ok (some (t, x)) ∧ HueL s t

theorem hue_netStep (A : App σ τ) (S : Server σ) (fuel : Nat) (e : Net.Ev) {s t : Life σ τ} (h : HueL s t) : TintedNet (Net.step A.mute (muteServer S) fuel s e) (Net.step A S fuel t e) := by
  obtain ⟨⟨rx, step, keys, p⟩, queue, op⟩ := s
  obtain ⟨⟨rx', step', keys', q⟩, queue', op'⟩ := t
  obtain ⟨⟨hp, hr⟩, hl⟩ := h
  simp only [Tel.mk.injEq, and_true] at hr
  obtain ⟨rfl, rfl, rfl⟩ := hr
  simp only [Life.mk.injEq, true_and] at hl
  obtain ⟨rfl, rfl⟩ := hl
  have ht : HueT (⟨rx', step', keys', p⟩ : Tel (σ × Bool) τ) ⟨rx', step', keys', q⟩ := ⟨hp, rfl⟩
  have ha : q.w.app = p.w.app := by obtain ⟨⟨io, _, hv⟩, _, _⟩ := hp; rw [hv]
  cases e with
  | arrive d =>
    simp only [Net.step]
    split
    · exact .inr (.inr ⟨_, _, none, rfl, rfl, ⟨ht, rfl⟩⟩)
    · exact .inr (.inl ⟨rfl, rfl⟩)
  | lost =>
    simp only [Net.step]
    split
    · exact .inr (.inr ⟨_, _, none, rfl, rfl, ⟨ht, rfl⟩⟩)
    · exact .inr (.inl ⟨rfl, rfl⟩)
  | exec i alive =>
    simp only [Net.step]
    cases queue'[i]? with
    | none => exact .inr (.inl ⟨rfl, rfl⟩)
    | some task =>
      cases task with
      | key k =>
        simp only
        split
        · have d := hue_key (telnetApp A S.exitAction alive) fuel hp k
          rw [mute_telnet] at d
          rcases d with ⟨f, h1, h2⟩ | ⟨p', q', x, h1, h2, h3⟩
          · rw [show (muteServer S).exitAction = S.exitAction.map (fun f s => (f s).mute) from rfl, h1, h2]; exact .inl ⟨f, rfl, rfl⟩
          · rw [show (muteServer S).exitAction = S.exitAction.map (fun f s => (f s).mute) from rfl, h1, h2]
            have ha' : q'.w.app = p'.w.app := by obtain ⟨⟨io, _, hv⟩, _, _⟩ := h3; rw [hv]
            simp only [ha, ha']
            split
            · exact .inr (.inr ⟨_, _, x, rfl, rfl, ⟨⟨h3, rfl⟩, rfl⟩⟩)
            · exact .inr (.inr ⟨_, _, x, rfl, rfl, ⟨⟨h3, rfl⟩, rfl⟩⟩)
        · exact .inl ⟨_, rfl, rfl⟩
      | read d =>
        simp only [ha]
        split
        · rcases hue_received d ht with ⟨f, h1, h2⟩ | ⟨s', t', h1, h2, h3⟩
          · rw [h1, h2]; exact .inl ⟨f, rfl, rfl⟩
          · rw [h1, h2]
            refine .inr (.inr ⟨_, _, none, rfl, rfl, ⟨⟨h3.proc, ?_⟩, ?_⟩⟩)
            · simp only; rw [h3.rest]
            · simp only; rw [h3.rest]
        · exact .inr (.inr ⟨_, _, none, rfl, rfl, ⟨ht, rfl⟩⟩)
      | fail => exact .inr (.inr ⟨_, _, none, rfl, rfl, ⟨ht, rfl⟩⟩)

theorem hue_netRun (A : App σ τ) (S : Server σ) (fuel : Nat) : ∀ (es : List Net.Ev) {s t : Life σ τ}, HueL s t →
    (∃ f, Net.run A.mute (muteServer S) fuel es s = .error f ∧ Net.run A S fuel es t = .error f) ∨ (Net.run A.mute (muteServer S) fuel es s = .ok none ∧ Net.run A S fuel es t = .ok none) ∨
    ∃ s' t', Net.run A.mute (muteServer S) fuel es s = .ok (some s') ∧ Net.run A S fuel es t = .ok (some t') ∧ HueL s' t'
  | [], s, t, h => .inr (.inr ⟨s, t, rfl, rfl, h⟩)
  | e :: es, s, t, h => by
    simp only [Net.run]
    rcases hue_netStep A S fuel e h with ⟨f, h1, h2⟩ | ⟨h1, h2⟩ | ⟨s', t', x, h1, h2, h3⟩
    · rw [h1, h2]; exact .inl ⟨f, rfl, rfl⟩
    · rw [h1, h2]; exact .inr (.inl ⟨rfl, rfl⟩)
    · rw [h1, h2]; exact hue_netRun A S fuel es h3

theorem hue_connect (A : App σ τ) {w v : World σ τ} (h : Hue Tinted w v) : (∃ f, Telnet.connect A.mute w = .error f ∧ Telnet.connect A v = .error f) ∨
    ∃ s t x, Telnet.connect A.mute w = .ok (s, x) ∧ Telnet.connect A v = .ok (t, x) ∧ HueT s t := by
  have d := pair_enter keeps_tinted A (hue_put keeps_tinted h Telnet.greeting)
  unfold Telnet.connect
  revert d
  generalize enterSession A.mute (w.put Telnet.greeting) = r
  generalize enterSession A (v.put Telnet.greeting) = r'
  obtain ⟨w1, x⟩ := r
  obtain ⟨v1, y⟩ := r'
  rintro ⟨d1, d2⟩
  simp only at d1 d2
  subst d2
  cases x with
  | some e => exact .inr ⟨_, _, some e, rfl, rfl, ⟨⟨d1, rfl, rfl⟩, rfl⟩⟩
  | none =>
    simp only [bind, Except.bind]
    rcases hue_prompt d1 with ⟨f, h1, h2⟩ | ⟨w', v', h1, h2, h3⟩
    · rw [h1, h2]; exact .inl ⟨f, rfl, rfl⟩
    · rw [h1, h2]; exact .inr ⟨_, _, none, rfl, rfl, ⟨⟨h3, rfl, rfl⟩, rfl⟩⟩

/-- Establishing the connection. -/
theorem hue_start (A : App σ τ) (S : Server σ) (w : World σ τ) (style : Style) :
    (∃ f, Net.start A.mute (muteServer S) w ⟨colourless, []⟩ = .error f ∧ Net.start A S w ⟨style, []⟩ = .error f) ∨
    ∃ s t x, Net.start A.mute (muteServer S) w ⟨colourless, []⟩ = .ok (s, x) ∧ Net.start A S w ⟨style, []⟩ = .ok (t, x) ∧ HueL s t := by
  unfold Net.start Telnet.accept
  simp only [show (muteServer S).exitAction = S.exitAction.map (fun f s => (f s).mute) from rfl, ← mute_telnet]
  have d := hue_connect (telnetApp A S.exitAction true) (w := ⟨(w.app, true), w.tree, w.dis, w.used, w.gen, w.storage, ⟨colourless, []⟩, [], History.loadCommands (History.init S.historySize) (A.stored w.storage), w.tree.root.id, false, []⟩)
    (v := ⟨(w.app, true), w.tree, w.dis, w.used, w.gen, w.storage, ⟨style, []⟩, [], History.loadCommands (History.init S.historySize) (A.stored w.storage), w.tree.root.id, false, []⟩) ⟨⟨style, []⟩, ⟨rfl, [], rfl, rfl, by simp [Calm]⟩, rfl⟩
  rcases d with ⟨f, h1, h2⟩ | ⟨s, t, x, h1, h2, h3⟩
  · exact .inl ⟨f, by simp only [newSession, muteServer]; erw [h1], by simp only [newSession]; rw [h2]⟩
  · cases x with
    | some e => exact .inr ⟨⟨s, [], false⟩, ⟨t, [], false⟩, some e, by simp only [newSession, muteServer]; erw [h1], by simp only [newSession]; rw [h2], ⟨h3, rfl⟩⟩
    | none => exact .inr ⟨⟨s, [], true⟩, ⟨t, [], true⟩, none, by simp only [newSession, muteServer]; erw [h1], by simp only [newSession]; rw [h2], ⟨h3, rfl⟩⟩

/-- **C97** The same for a telnet session, from the connection on, whatever arrives and in whatever order it is handled: what the client is shown (before the encoding of the ends of lines) is what it is shown without colours, with colour codes in it, the
    last of which is a reset; the keys still to be handled, and whether the connection is open, are the same. -/
theorem C97_telnet (A : App σ τ) (S : Server σ) (fuel : Nat) (es : List Net.Ev) (w : World σ τ) (style : Style) (l : Life σ τ) (x : Option Exn) (h : Net.start A S w ⟨style, []⟩ = .ok (l, x)) :
    ∃ m, Net.start A.mute (muteServer S) w ⟨colourless, []⟩ = .ok (m, x) ∧
      ((∃ f, Net.run A.mute (muteServer S) fuel es m = .error f ∧ Net.run A S fuel es l = .error f) ∨ (Net.run A.mute (muteServer S) fuel es m = .ok none ∧ Net.run A S fuel es l = .ok none) ∨
        ∃ (s : Life σ τ) (io : Io) (ps : List Piece), Net.run A.mute (muteServer S) fuel es m = .ok (some s) ∧
          Net.run A S fuel es l = .ok (some { s with tel := { s.tel with proc := { s.tel.proc with w := { s.tel.proc.w with io := io } } } }) ∧ textOf ps = s.tel.proc.w.io.out ∧ painted ps = io.out ∧ Calm ps) := by
  rcases hue_start A S w style with ⟨f, _, h2⟩ | ⟨m, t, y, h1, h2, h3⟩
  · rw [h2] at h; cases h
  · rw [h2] at h; cases h
    refine ⟨m, h1, ?_⟩
    rcases hue_netRun A S fuel es h3 with k | k | ⟨s, t, k1, k2, ⟨⟨⟨⟨io, ⟨_, ps, e1, e2, e3⟩, hv⟩, ht, ha⟩, hr⟩, hl⟩⟩
    · exact .inl k
    · exact .inr (.inl k)
    · refine .inr (.inr ⟨s, io, ps, k1, ?_, e1, e2, e3⟩)
      rw [k2, hl, hr]
      obtain ⟨⟨rx, st, ke, ⟨w1, t1, a1⟩⟩, q1, o1⟩ := s
      obtain ⟨⟨rx', st', ke', ⟨w2, t2, a2⟩⟩, q2, o2⟩ := t
      simp only at hv ht ha ⊢
      rw [hv, ht, ha]

/-- A client connects, in colour, and sends a line. -/
example : (match Net.start Sample.app ⟨none, none, 10⟩ Sample.world ⟨⟨true, false, false⟩, []⟩ with
      | .ok (l, none) => (match Net.run Sample.app ⟨none, none, 10⟩ 3 [.arrive bs!"x\r\n", .exec 0 true, .exec 0 true, .exec 0 true] l with | .ok (some l) => some l.tel.proc.w.io.out | _ => none)
      | _ => none) = some (Telnet.greeting ++ bs!"\x1b[32m\x1b[1mcli\x1b[0m> \x1b[97mx\x1b[0m\r\nwrong command: x\n\x1b[32m\x1b[1mcli\x1b[0m> ") := by decide +kernel

end Verif.Props
