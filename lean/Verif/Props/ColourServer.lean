import Verif.Props.ColourNet
import Verif.Model.TelnetServer

set_option linter.unusedSimpArgs false

/-!
# Property C97 for all the clients of a telnet server

`SetColor` and `SetNoColor` are for all sessions at once.
-/

namespace Verif.Props
open Verif.Spec Verif.Processor
open Telnet (Server)
open Net (Life)
open Sessions (Shared)
open TelnetServer (Serv seen seenLife left hears cliState)

variable {σ τ : Type}

/-- The same, but for the colours. -/
def HueShared (a b : Shared σ τ) : Prop := a = { b with color := false }

/-- The servers differ at most in the colours and in what the clients are shown. -/
structure HueS (s t : Serv σ τ) : Prop where
  sh : HueShared s.sh t.sh
  accepting : t.accepting = s.accepting
  count : s.conns.length = t.conns.length
  conns : ∀ (j : Nat) (a b : Life σ τ), s.conns[j]? = some a → t.conns[j]? = some b → HueL a b

theorem hueL_io {s t : Life σ τ} (h : HueL s t) : ∃ io, Tinted s.tel.proc.w.io io ∧ t = { s with tel := { s.tel with proc := { s.tel.proc with w := { s.tel.proc.w with io := io } } } } := by
  obtain ⟨⟨⟨⟨io, h1, hv⟩, ht, ha⟩, hr⟩, hl⟩ := h
  refine ⟨io, h1, ?_⟩
  rw [hl, hr]
  obtain ⟨⟨rx, st, ke, ⟨w1, t1, a1⟩⟩, q1, o1⟩ := s
  obtain ⟨⟨rx', st', ke', ⟨w2, t2, a2⟩⟩, q2, o2⟩ := t
  simp only at hv ht ha ⊢
  rw [hv, ht, ha]

theorem io_hueL {s : Life σ τ} {io : Io} (h : Tinted s.tel.proc.w.io io) : HueL s { s with tel := { s.tel with proc := { s.tel.proc with w := { s.tel.proc.w with io := io } } } } :=
  ⟨⟨⟨⟨io, h, rfl⟩, rfl, rfl⟩, rfl⟩, rfl⟩

theorem hue_seen {a b : Shared σ τ} (hs : HueShared a b) {s t : Life σ τ} (h : HueL s t) : HueL (seenLife a s) (seenLife b t) := by
  obtain ⟨io, h1, rfl⟩ := hueL_io h
  rw [hs]
  have h2 : Tinted ({ s.tel.proc.w.io with style := { s.tel.proc.w.io.style with color := false } } : Io) { io with style := { io.style with color := b.color } } := by
    obtain ⟨h3, ps, h4⟩ := h1
    exact ⟨by rw [h3]; rfl, ps, h4⟩
  exact ⟨⟨⟨⟨_, h2, rfl⟩, rfl, rfl⟩, rfl⟩, rfl⟩

theorem hue_left {s t : Life σ τ} (h : HueL s t) : HueShared (left s.tel.proc.w) (left t.tel.proc.w) ∧ t.tel.proc.w.casts = s.tel.proc.w.casts := by
  obtain ⟨io, ⟨h1, _⟩, rfl⟩ := hueL_io h
  exact ⟨by simp only [HueShared, left, h1, colourless], rfl⟩

theorem hue_hears (text : Str) {s t : Life σ τ} (h : HueL s t) : HueL (hears text s) (hears text t) := by
  obtain ⟨io, h1, rfl⟩ := hueL_io h
  unfold hears
  split
  · exact ⟨⟨⟨⟨_, keeps_tinted.put text h1, rfl⟩, rfl, rfl⟩, rfl⟩, rfl⟩
  · exact io_hueL h1

def TintedServer (r r' : Except Fault (Option (Serv σ τ × Option Exn))) : Prop :=
  (∃ f, r = .error f ∧ r' = .error f) ∨ (r = .ok none ∧ r' = .ok none) ∨ ∃ s t x, r = .ok (some (s, x)) ∧ r' = .ok (some (t, x)) ∧ HueS s t

theorem hue_conns {c d : List (Life σ τ)} (h : ∀ (j : Nat) (a b : Life σ τ), c[j]? = some a → d[j]? = some b → HueL a b) (text : Str) (j : Nat) (a b : Life σ τ)
    (ha : (c.map (hears text))[j]? = some a) (hb : (d.map (hears text))[j]? = some b) : HueL a b := by
  rw [List.getElem?_map] at ha hb
  obtain ⟨a', ha', rfl⟩ := Option.map_eq_some_iff.1 ha
  obtain ⟨b', hb', rfl⟩ := Option.map_eq_some_iff.1 hb
  exact hue_hears text (h j a' b' ha' hb')

/-- The same event, with a client that is not taken for a terminal. -/
def plainEv : TelnetServer.Ev → TelnetServer.Ev
  | .client _ => .client false
  | .error => .error
  | .conn j e => .conn j e

theorem hue_serverStep (A : App σ τ) (S : Server σ) (fuel : Nat) (e : TelnetServer.Ev) {s t : Serv σ τ} (h : HueS s t) : TintedServer (TelnetServer.step A.mute (muteServer S) fuel s (plainEv e)) (TelnetServer.step A S fuel t e) := by
  cases e with
  | client tty =>
    have hc : s.sh.color = false := by rw [h.sh]
    simp only [plainEv, TelnetServer.step, h.accepting]
    split
    · have hw : Net.start A.mute (muteServer S) (cliState s.sh ⟨⟨s.sh.color, false, false⟩, []⟩) ⟨⟨s.sh.color, false, false⟩, []⟩ = Net.start A.mute (muteServer S) (cliState t.sh ⟨⟨t.sh.color, tty, false⟩, []⟩) ⟨colourless, []⟩ := by
        rw [hc, h.sh]; rfl
      rw [hw]
      rcases hue_start A S (cliState t.sh ⟨⟨t.sh.color, tty, false⟩, []⟩) ⟨t.sh.color, tty, false⟩ with ⟨f, h1, h2⟩ | ⟨a, b, x, h1, h2, h3⟩
      · rw [h1, h2]; exact .inl ⟨f, rfl, rfl⟩
      · rw [h1, h2]
        obtain ⟨g1, g2⟩ := hue_left h3
        refine .inr (.inr ⟨_, _, x, rfl, rfl, ⟨g1, rfl, by simp [h.count], ?_⟩⟩)
        intro i p q hp hq
        simp only [g2] at hq
        rw [List.getElem?_append] at hp hq
        simp only [List.length_map, h.count] at hp hq
        split at hp
        · rename_i hlt
          rw [if_pos hlt] at hq
          exact hue_conns h.conns _ i p q hp hq
        · rename_i hlt
          rw [if_neg hlt] at hq
          revert hp hq
          cases i - t.conns.length with
          | zero => intro hp hq; cases hp; cases hq; exact h3
          | succ n => intro hp; cases hp
    · exact .inr (.inl ⟨rfl, rfl⟩)
  | error =>
    simp only [plainEv, TelnetServer.step, h.accepting]
    split
    · exact .inr (.inr ⟨_, _, none, rfl, rfl, h⟩)
    · exact .inr (.inl ⟨rfl, rfl⟩)
  | conn j e =>
    simp only [plainEv, TelnetServer.step]
    cases hs : s.conns[j]? with
    | none =>
      have : t.conns[j]? = none := by rw [List.getElem?_eq_none_iff] at hs ⊢; rw [← h.count]; exact hs
      rw [this]
      exact .inr (.inl ⟨rfl, rfl⟩)
    | some a =>
      obtain ⟨b, hb⟩ : ∃ b, t.conns[j]? = some b := by
        obtain ⟨hj, _⟩ := List.getElem?_eq_some_iff.1 hs
        exact ⟨_, List.getElem?_eq_getElem (h.count ▸ hj)⟩
      rw [hb]
      simp only
      rcases hue_netStep A S fuel e (hue_seen h.sh (h.conns j a b hs hb)) with ⟨f, h1, h2⟩ | ⟨h1, h2⟩ | ⟨a', b', x, h1, h2, h3⟩
      · rw [h1, h2]; exact .inl ⟨f, rfl, rfl⟩
      · rw [h1, h2]; exact .inr (.inl ⟨rfl, rfl⟩)
      · rw [h1, h2]
        obtain ⟨g1, g2⟩ := hue_left h3
        refine .inr (.inr ⟨_, _, x, rfl, rfl, ⟨g1, h.accepting, by simp [h.count], ?_⟩⟩)
        intro i p q hp hq
        simp only [g2] at hq
        rw [List.getElem?_set] at hp hq
        simp only [List.length_map, h.count] at hp hq
        split at hp
        · rename_i hij
          rw [if_pos hij] at hq
          split at hp
          · rename_i hlt
            rw [if_pos hlt] at hq
            cases hp; cases hq; exact h3
          · cases hp
        · rename_i hij
          rw [if_neg hij] at hq
          exact hue_conns h.conns _ i p q hp hq

theorem hue_serverRun (A : App σ τ) (S : Server σ) (fuel : Nat) : ∀ (es : List TelnetServer.Ev) {s t : Serv σ τ}, HueS s t →
    (∃ f, TelnetServer.run A.mute (muteServer S) fuel (es.map plainEv) s = .error f ∧ TelnetServer.run A S fuel es t = .error f) ∨
    (TelnetServer.run A.mute (muteServer S) fuel (es.map plainEv) s = .ok none ∧ TelnetServer.run A S fuel es t = .ok none) ∨
    ∃ s' t', TelnetServer.run A.mute (muteServer S) fuel (es.map plainEv) s = .ok (some s') ∧ TelnetServer.run A S fuel es t = .ok (some t') ∧ HueS s' t'
  | [], s, t, h => .inr (.inr ⟨s, t, rfl, rfl, h⟩)
  | e :: es, s, t, h => by
    simp only [List.map_cons, TelnetServer.run]
    rcases hue_serverStep A S fuel e h with ⟨f, h1, h2⟩ | ⟨h1, h2⟩ | ⟨s', t', x, h1, h2, h3⟩
    · rw [h1, h2]; exact .inl ⟨f, rfl, rfl⟩
    · rw [h1, h2]; exact .inr (.inl ⟨rfl, rfl⟩)
    · rw [h1, h2]; exact hue_serverRun A S fuel es h3

/-- **C97** The same for all the clients of a server, who switch the colours for each other: whatever happens, it happens as in a server without colours whose clients are not taken for terminals, up to the last byte of the application's state; each client is
    shown what it is shown there, with colour codes in it, the last of which is a reset. -/
theorem C97_server (A : App σ τ) (S : Server σ) (fuel : Nat) (es : List TelnetServer.Ev) (sh : Shared σ τ) (t : Serv σ τ) (h : TelnetServer.run A S fuel es (TelnetServer.init sh) = .ok (some t)) :
    ∃ s, TelnetServer.run A.mute (muteServer S) fuel (es.map plainEv) (TelnetServer.init { sh with color := false }) = .ok (some s) ∧ s.sh = { t.sh with color := false } ∧ s.accepting = t.accepting ∧
      s.conns.length = t.conns.length ∧ ∀ (j : Nat) (a b : Life σ τ), s.conns[j]? = some a → t.conns[j]? = some b →
        ∃ (io : Io) (ps : List Piece), b = { a with tel := { a.tel with proc := { a.tel.proc with w := { a.tel.proc.w with io := io } } } } ∧ textOf ps = a.tel.proc.w.io.out ∧ painted ps = io.out ∧ Calm ps := by
  have h0 : HueS (TelnetServer.init { sh with color := false }) (TelnetServer.init sh) := ⟨rfl, rfl, rfl, fun j a b ha => by simp [TelnetServer.init] at ha⟩
  rcases hue_serverRun A S fuel es h0 with ⟨f, _, h2⟩ | ⟨_, h2⟩ | ⟨s, t', h1, h2, h3⟩
  · rw [h2] at h; cases h
  · rw [h2] at h; cases h
  · rw [h2] at h; cases h
    refine ⟨s, h1, h3.sh, h3.accepting.symm, h3.count, fun j a b ha hb => ?_⟩
    obtain ⟨io, ⟨_, ps, e1, e2, e3⟩, e⟩ := hueL_io (h3.conns j a b ha hb)
    exact ⟨io, ps, e, e1, e2, e3⟩

/-- And it goes wrong if and only if it goes wrong without colours. -/
theorem C97_server_faults (A : App σ τ) (S : Server σ) (fuel : Nat) (es : List TelnetServer.Ev) (sh : Shared σ τ) (f : Fault) :
    TelnetServer.run A S fuel es (TelnetServer.init sh) = .error f ↔ TelnetServer.run A.mute (muteServer S) fuel (es.map plainEv) (TelnetServer.init { sh with color := false }) = .error f := by
  have h0 : HueS (TelnetServer.init { sh with color := false }) (TelnetServer.init sh) := ⟨rfl, rfl, rfl, fun j a b ha => by simp [TelnetServer.init] at ha⟩
  rcases hue_serverRun A S fuel es h0 with ⟨g, h1, h2⟩ | ⟨h1, h2⟩ | ⟨s, t', h1, h2, h3⟩ <;> rw [h1, h2] <;> simp

/-- An application with a command `any` that switches the colours off. -/
def dimming : App (List Nat) (List Str) := { Sample.app with handler := fun fn s v => if fn = 5 then ⟨fn :: s, [.color false], none⟩ else Sample.handler fn s v }

/-- Two clients with terminals connect, in colour; the first enters `any`, then the second enters `x`: what they are shown after the greeting. -/
def dimmed : List Str :=
  match TelnetServer.run dimming ⟨none, none, 10⟩ 3 ([.client true, .client true, .conn 0 (.arrive bs!"any\r\n"), .conn 1 (.arrive bs!"x\r\n")] ++ List.replicate 5 (.conn 0 (.exec 0 true)) ++ List.replicate 3 (.conn 1 (.exec 0 true)))
    (TelnetServer.init ⟨[], Sample.tree, fun _ => false, Sample.tree.ids, 0, [], true⟩) with
  | .ok (some s) => s.conns.map (fun (l : Net.Life (List Nat) (List Str)) => l.tel.proc.w.io.out.drop Telnet.greeting.length)
  | _ => []

example : dimmed = [bs!"\x1b[32m\x1b[1mcli\x1b[0m> \x1b[97ma\x1b[0m\x1b[97mn\x1b[0m\x1b[97my\x1b[0m\r\ncli\x1b[0m> ", bs!"\x1b[32m\x1b[1mcli\x1b[0m> x\x1b[0m\r\nwrong command: x\ncli\x1b[0m> "] := by decide +kernel

end Verif.Props
