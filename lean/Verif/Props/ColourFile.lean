import Verif.Props.Colour
import Verif.Model.AsyncSession

set_option linter.unusedSimpArgs false

/-!
# Property C97 for sessions on files and asynchronous sessions
-/

namespace Verif.Props
open Verif.Spec

variable {σ τ : Type}

/-! ### Files -/

open FileSession (In End exitThen loop start)

/-- How `Start` ends, but for the streams. -/
def TintedEnd (r r' : Except Fault (Option (End σ τ))) : Prop :=
  (∃ f, r = .error f ∧ r' = .error f) ∨ (r = .ok none ∧ r' = .ok none) ∨ ∃ w v i fed x, r = .ok (some ⟨w, i, fed, x⟩) ∧ r' = .ok (some ⟨v, i, fed, x⟩) ∧ Hue Tinted w v

theorem hue_exitThen (A : App (σ × Bool) τ) (i : In) (fed : List Str) {k k' : World (σ × Bool) τ → Except Fault (Option (End σ τ))} (hk : ∀ {w v}, Hue Tinted w v → TintedEnd (k w) (k' v))
    {w v : World (σ × Bool) τ} (h : Hue Tinted w v) : TintedEnd (exitThen A.mute w i fed k) (exitThen A v i fed k') := by
  have d := dyed_exit keeps_tinted A h
  unfold exitThen
  revert d
  generalize exitSession A.mute w = r
  generalize exitSession A v = r'
  intro d
  cases d with
  | error f => exact .inl ⟨f, rfl, rfl⟩
  | @ok w' v' o hw =>
    cases o with
    | some e => exact .inr (.inr ⟨w', v', i, fed, some e, rfl, rfl, hw⟩)
    | none => exact hk hw

theorem hue_loop (A : App (σ × Bool) τ) (fuel : Nat) : ∀ (n : Nat) (i : In) (fed : List Str) {w v : World (σ × Bool) τ}, Hue Tinted w v → TintedEnd (loop A.mute fuel n i fed w) (loop A fuel n i fed v) := by
  intro n
  induction n with
  | zero =>
    intro i fed w v h
    have ha : v.app = w.app := by obtain ⟨io, _, rfl⟩ := h; rfl
    unfold loop
    rw [ha]
    split
    · exact .inr (.inr ⟨w, v, i, fed, none, rfl, rfl, h⟩)
    · exact .inr (.inl ⟨rfl, rfl⟩)
  | succ n ih =>
    intro i fed w v h
    have ha : v.app = w.app := by obtain ⟨io, _, rfl⟩ := h; rfl
    unfold loop
    rw [ha]
    split
    · exact .inr (.inr ⟨w, v, i, fed, none, rfl, rfl, h⟩)
    · rcases hue_prompt h with ⟨f, h1, h2⟩ | ⟨w', v', h1, h2, h3⟩
      · rw [h1, h2]; exact .inl ⟨f, rfl, rfl⟩
      · rw [h1, h2]
        dsimp only
        have hread : ∀ {w v : World (σ × Bool) τ}, Hue Tinted w v → TintedEnd
            (if (FileSession.getline i).1.eof = true then exitThen A.mute w (FileSession.getline i).1 fed (loop A.mute fuel n (FileSession.getline i).1 fed)
              else match feed A.mute fuel (FileSession.getline i).2 w with
                | .error f => .error f
                | .ok (w, some e) => .ok (some ⟨w, (FileSession.getline i).1, fed ++ [(FileSession.getline i).2], some e⟩)
                | .ok (w, none) => loop A.mute fuel n (FileSession.getline i).1 (fed ++ [(FileSession.getline i).2]) w)
            (if (FileSession.getline i).1.eof = true then exitThen A v (FileSession.getline i).1 fed (loop A fuel n (FileSession.getline i).1 fed)
              else match feed A fuel (FileSession.getline i).2 v with
                | .error f => .error f
                | .ok (w, some e) => .ok (some ⟨w, (FileSession.getline i).1, fed ++ [(FileSession.getline i).2], some e⟩)
                | .ok (w, none) => loop A fuel n (FileSession.getline i).1 (fed ++ [(FileSession.getline i).2]) w) := by
          intro w v h
          split
          · exact hue_exitThen A _ _ (ih _ _) h
          · have d := dyed_feed keeps_tinted A fuel (FileSession.getline i).2 h
            revert d
            generalize feed A.mute fuel (FileSession.getline i).2 w = r
            generalize feed A fuel (FileSession.getline i).2 v = r'
            intro d
            cases d with
            | error f => exact .inl ⟨f, rfl, rfl⟩
            | @ok w' v' o hw =>
              cases o with
              | some e => exact .inr (.inr ⟨w', v', _, _, some e, rfl, rfl, hw⟩)
              | none => exact ih _ _ hw
        split
        · exact hread h3
        · exact hue_exitThen A _ _ hread h3

/-- **C97** The same for a session on a file: the lines fed, the exception and everything else are as without colours; only the output has colour codes in it, the last of which is a reset. -/
theorem C97_file (A : App (σ × Bool) τ) (fuel n : Nat) (i : In) (w : World (σ × Bool) τ) (style : Style) :
    (∃ f, start A.mute fuel n i { w with io := ⟨colourless, []⟩ } = .error f ∧ start A fuel n i { w with io := ⟨style, []⟩ } = .error f) ∨
    (start A.mute fuel n i { w with io := ⟨colourless, []⟩ } = .ok none ∧ start A fuel n i { w with io := ⟨style, []⟩ } = .ok none) ∨
    ∃ (e : End σ τ) (io : Io) (ps : List Piece), start A.mute fuel n i { w with io := ⟨colourless, []⟩ } = .ok (some e) ∧ start A fuel n i { w with io := ⟨style, []⟩ } = .ok (some { e with w := { e.w with io := io } }) ∧
      textOf ps = e.w.io.out ∧ painted ps = io.out ∧ Calm ps := by
  have h0 : Hue Tinted ({ w with io := ⟨colourless, []⟩ } : World (σ × Bool) τ) { w with io := ⟨style, []⟩ } := ⟨⟨style, []⟩, ⟨rfl, [], rfl, rfl, by simp [Calm]⟩, rfl⟩
  have k : TintedEnd (start A.mute fuel n i { w with io := ⟨colourless, []⟩ }) (start A fuel n i { w with io := ⟨style, []⟩ }) := by
    have d := pair_enter keeps_tinted A h0
    unfold start
    revert d
    generalize enterSession A.mute { w with io := ⟨colourless, []⟩ } = r
    generalize enterSession A { w with io := ⟨style, []⟩ } = r'
    obtain ⟨w1, x⟩ := r
    obtain ⟨v1, y⟩ := r'
    rintro ⟨d1, d2⟩
    simp only at d1 d2
    subst d2
    cases x with
    | some e => exact .inr (.inr ⟨w1, v1, i, [], some e, rfl, rfl, d1⟩)
    | none => exact hue_loop A fuel n i [] d1
  rcases k with h | h | ⟨w', v, i', fed, x, h1, h2, io, ⟨_, ps, e1, e2, e3⟩, rfl⟩
  · exact .inl h
  · exact .inr (.inl h)
  · exact .inr (.inr ⟨_, io, ps, h1, h2, e1, e2, e3⟩)

/-! ### Asynchronous sessions -/

/-- The states differ at most in the streams. -/
structure HueA (s t : Async.St σ τ) : Prop where
  w : Hue Tinted s.w t.w
  rest : t = { s with w := t.w }

def TintedAsync (r r' : Except Fault (Async.St σ τ × Option Exn)) : Prop := (∃ f, r = .error f ∧ r' = .error f) ∨ ∃ s t x, r = .ok (s, x) ∧ r' = .ok (t, x) ∧ HueA s t

theorem hue_read {s t : Async.St σ τ} (h : HueA s t) : (∃ f, Async.read s = .error f ∧ Async.read t = .error f) ∨ ∃ s' t', Async.read s = .ok s' ∧ Async.read t = .ok t' ∧ HueA s' t' := by
  obtain ⟨hw, hr⟩ := h
  unfold Async.read
  rcases hue_prompt hw with ⟨f, h1, h2⟩ | ⟨w', v', h1, h2, h3⟩
  · exact .inl ⟨f, by rw [h1], by rw [h2]⟩
  · exact .inr ⟨_, _, by rw [h1], by rw [h2], ⟨h3, by rw [hr]⟩⟩

theorem hue_step (A : App σ τ) (fuel : Nat) (e : Async.Ev) {s t : Async.St σ τ} (h : HueA s t) : TintedAsync (Async.step A.mute fuel s e) (Async.step A fuel t e) := by
  obtain ⟨w, buf, reading, live, got, fed⟩ := s
  obtain ⟨v, buf', reading', live', got', fed'⟩ := t
  obtain ⟨hw, hr⟩ := h
  simp only [Async.St.mk.injEq, true_and] at hr
  obtain ⟨rfl, rfl, rfl, rfl, rfl⟩ := hr
  have hh : HueA (⟨w, buf', reading', live', got', fed'⟩ : Async.St σ τ) ⟨v, buf', reading', live', got', fed'⟩ := ⟨hw, rfl⟩
  cases e with
  | data x =>
    simp only [Async.step]
    split
    · exact .inr ⟨_, _, none, rfl, rfl, ⟨hw, rfl⟩⟩
    · exact .inr ⟨_, _, none, rfl, rfl, hh⟩
  | line =>
    simp only [Async.step]
    split
    · cases FileSession.cut buf' with
      | none => exact .inr ⟨_, _, none, rfl, rfl, hh⟩
      | some p =>
        obtain ⟨l, rest⟩ := p
        simp only
        split
        · have d := dyed_feed keeps_tinted A fuel l hw
          revert d
          generalize feed A.mute fuel l w = r
          generalize feed A fuel l v = r'
          intro d
          cases d with
          | error f => exact .inl ⟨f, rfl, rfl⟩
          | @ok w' v' o hw' =>
            cases o with
            | some x => exact .inr ⟨_, _, some x, rfl, rfl, ⟨hw', rfl⟩⟩
            | none =>
              simp only
              rcases hue_read (s := ⟨w', rest, false, live', got', fed' ++ [l]⟩) (t := ⟨v', rest, false, live', got', fed' ++ [l]⟩) ⟨hw', rfl⟩ with ⟨f, h1, h2⟩ | ⟨s', t', h1, h2, h3⟩
              · rw [h1, h2]; exact .inl ⟨f, rfl, rfl⟩
              · rw [h1, h2]; exact .inr ⟨_, _, none, rfl, rfl, h3⟩
        · exact .inl ⟨_, rfl, rfl⟩
    · exact .inr ⟨_, _, none, rfl, rfl, hh⟩
  | fail =>
    simp only [Async.step]
    split
    · split
      · exact .inr ⟨_, _, none, rfl, rfl, ⟨hw, rfl⟩⟩
      · exact .inl ⟨_, rfl, rfl⟩
    · exact .inr ⟨_, _, none, rfl, rfl, hh⟩
  | destroy => exact .inr ⟨_, _, none, rfl, rfl, ⟨hw, rfl⟩⟩

theorem hue_asyncRun (A : App σ τ) (fuel : Nat) : ∀ (es : List Async.Ev) {s t : Async.St σ τ}, HueA s t → TintedAsync (Async.run A.mute fuel es s) (Async.run A fuel es t)
  | [], s, t, h => .inr ⟨s, t, none, rfl, rfl, h⟩
  | e :: es, s, t, h => by
    simp only [Async.run]
    rcases hue_step A fuel e h with ⟨f, h1, h2⟩ | ⟨s', t', x, h1, h2, h3⟩
    · rw [h1, h2]; exact .inl ⟨f, rfl, rfl⟩
    · rw [h1, h2]
      cases x with
      | some x => exact .inr ⟨s', t', some x, rfl, rfl, h3⟩
      | none => exact hue_asyncRun A fuel es h3

/-- **C97** The same for an asynchronous session, from its construction on, whatever happens in whatever order. -/
theorem C97_async (A : App σ τ) (fuel : Nat) (es : List Async.Ev) (w : World σ τ) (style : Style) :
    (∃ f, (Async.create A.mute w ⟨colourless, []⟩).bind (Async.run A.mute fuel es) = .error f ∧ (Async.create A w ⟨style, []⟩).bind (Async.run A fuel es) = .error f) ∨
    ∃ (s : Async.St σ τ) (io : Io) (x : Option Exn) (ps : List Piece), (Async.create A.mute w ⟨colourless, []⟩).bind (Async.run A.mute fuel es) = .ok (s, x) ∧
      (Async.create A w ⟨style, []⟩).bind (Async.run A fuel es) = .ok ({ s with w := { s.w with io := io } }, x) ∧ textOf ps = s.w.io.out ∧ painted ps = io.out ∧ Calm ps := by
  have h0 : HueA (⟨newSession A.mute 1 w ⟨colourless, []⟩, [], false, true, [], []⟩ : Async.St σ τ) ⟨newSession A 1 w ⟨style, []⟩, [], false, true, [], []⟩ :=
    ⟨⟨⟨style, []⟩, ⟨rfl, [], rfl, rfl, by simp [Calm]⟩, rfl⟩, rfl⟩
  have k : TintedAsync ((Async.create A.mute w ⟨colourless, []⟩).bind (Async.run A.mute fuel es)) ((Async.create A w ⟨style, []⟩).bind (Async.run A fuel es)) := by
    unfold Async.create
    rcases hue_read h0 with ⟨f, h1, h2⟩ | ⟨s', t', h1, h2, h3⟩
    · rw [h1, h2]; exact .inl ⟨f, rfl, rfl⟩
    · rw [h1, h2]; exact hue_asyncRun A fuel es h3
  rcases k with h | ⟨s, t, x, h1, h2, ⟨io, ⟨_, ps, e1, e2, e3⟩, h4⟩, h5⟩
  · exact .inl h
  · exact .inr ⟨s, io, x, ps, h1, by rw [h2, h5, h4], e1, e2, e3⟩

/-- A file with a line, in colour. -/
example : (match FileSession.create Sample.app (In.of bs!"x\n") true Sample.world ⟨⟨true, false, false⟩, []⟩ with
      | .ok w => (match start (FileSession.fileApp Sample.app none) 3 5 (In.of bs!"x\n") w with | .ok (some e) => some e.w.io.out | _ => none)
      | _ => none) = some bs!"\x1b[32m\x1b[1mcli\x1b[0m> wrong command: x\n\x1b[32m\x1b[1mcli\x1b[0m> " := by decide +kernel

/-- An asynchronous session, in colour, gets a line. -/
example : (match (Async.create Sample.app Sample.world ⟨⟨true, false, false⟩, []⟩).bind (Async.run Sample.app 3 [.data bs!"x\n", .line]) with
      | .ok (s, none) => some s.w.io.out
      | _ => none) = some bs!"\x1b[32m\x1b[1mcli\x1b[0m> wrong command: x\n\x1b[32m\x1b[1mcli\x1b[0m> " := by decide +kernel

end Verif.Props
