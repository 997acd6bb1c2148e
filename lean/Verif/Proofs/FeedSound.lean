import Verif.Proofs.Feed

set_option linter.unusedSimpArgs false

/-!
# Every handler that `Feed` calls is designated by a line, whatever the user's code does
-/

namespace Verif
open Spec
open FromString (Value ConvErr)

variable {σ τ : Type}

def isRan : Event → Bool
  | .ran _ _ _ _ => true
  | _ => false

/-- All the handlers called are designated by one of the lines, the first one with menus disabled as they are. -/
def SoundLog (p : Platform) (S : List Str) (evs : List Event) : Prop :=
  (∀ c vals s x, .ran c vals s x ∈ evs → ∃ l ∈ S, RunsBy p allOn l c vals s) ∧
  (∀ c vals s x, evs.find? isRan = some (.ran c vals s x) → ∃ l ∈ S, RunsBy p s.dis l c vals s)

/-- The log was only extended, soundly. -/
def SoundStep (p : Platform) (S : List Str) (w w' : World σ τ) : Prop := ∃ evs, w'.log = w.log ++ evs ∧ SoundLog p S evs

theorem soundLog_append {p : Platform} {S : List Str} {a b : List Event} (ha : SoundLog p S a) (hb : SoundLog p S b) : SoundLog p S (a ++ b) := by
  refine ⟨?_, ?_⟩
  · intro c vals s x h
    rw [List.mem_append] at h
    rcases h with h | h
    · exact ha.1 _ _ _ _ h
    · exact hb.1 _ _ _ _ h
  · intro c vals s x h
    rw [List.find?_append] at h
    cases hf : a.find? isRan with
    | some e => rw [hf] at h; simp only [Option.some_or, Option.some.injEq] at h; subst h; exact ha.2 _ _ _ _ hf
    | none => rw [hf] at h; simp only [Option.none_or] at h; exact hb.2 _ _ _ _ h

theorem soundLog_noRan {p : Platform} {S : List Str} {evs : List Event} (h : ∀ e ∈ evs, isRan e = false) : SoundLog p S evs := by
  refine ⟨?_, ?_⟩
  · intro c vals s x hm; simpa [isRan] using h _ hm
  · intro c vals s x hf
    simpa [isRan] using h _ (List.mem_of_find?_eq_some hf)

theorem soundLog_mono {p : Platform} {S S' : List Str} {evs : List Event} (h : ∀ l ∈ S, l ∈ S') (hs : SoundLog p S evs) : SoundLog p S' evs := by
  refine ⟨?_, ?_⟩
  · intro c vals s x hm
    obtain ⟨l, hl, hr⟩ := hs.1 _ _ _ _ hm
    exact ⟨l, h l hl, hr⟩
  · intro c vals s x hm
    obtain ⟨l, hl, hr⟩ := hs.2 _ _ _ _ hm
    exact ⟨l, h l hl, hr⟩

theorem soundStep_refl {p : Platform} {S : List Str} (w : World σ τ) : SoundStep p S w w := ⟨[], by simp, soundLog_noRan (by simp)⟩

theorem soundStep_trans {p : Platform} {S : List Str} {a b c : World σ τ} (h1 : SoundStep p S a b) (h2 : SoundStep p S b c) : SoundStep p S a c := by
  obtain ⟨e1, l1, s1⟩ := h1
  obtain ⟨e2, l2, s2⟩ := h2
  exact ⟨e1 ++ e2, by rw [l2, l1, List.append_assoc], soundLog_append s1 s2⟩

/-- Only events that are no handler calls. -/
def Quiet (w w' : World σ τ) : Prop := ∃ evs, w'.log = w.log ++ evs ∧ ∀ e ∈ evs, isRan e = false

theorem quiet_sound {p : Platform} {S : List Str} {w w' : World σ τ} (h : Quiet w w') : SoundStep p S w w' := by
  obtain ⟨evs, h1, h2⟩ := h
  exact ⟨evs, h1, soundLog_noRan h2⟩

theorem quiet_refl (w : World σ τ) : Quiet w w := ⟨[], by simp, by simp⟩

theorem quiet_trans {a b c : World σ τ} (h1 : Quiet a b) (h2 : Quiet b c) : Quiet a c := by
  obtain ⟨e1, l1, s1⟩ := h1
  obtain ⟨e2, l2, s2⟩ := h2
  refine ⟨e1 ++ e2, by rw [l2, l1, List.append_assoc], ?_⟩
  intro e he
  rw [List.mem_append] at he
  exact he.elim (s1 e) (s2 e)

theorem quiet_log {w w' : World σ τ} (h : w'.log = w.log) : Quiet w w' := ⟨[], by simp [h], by simp⟩

theorem quiet_note (w : World σ τ) (e : Event) (he : isRan e = false) : Quiet w (w.note e) := ⟨[e], rfl, by simpa using he⟩

theorem quiet_effect (w : World σ τ) (e : Effect σ) : Quiet w (w.effect e) := quiet_log (effect_same w e).2.1

section
variable (A : App σ τ)

theorem quiet_action (f : σ → Effect σ) (ev : Event) (he : isRan ev = false) (w : World σ τ) : Quiet w (callAction f ev w).1 :=
  quiet_trans (quiet_note w ev he) (quiet_effect _ _)

theorem quiet_optAction (a : Option (σ → Effect σ)) (ev : Event) (he : isRan ev = false) (w : World σ τ) : Quiet w (optAction a ev w).1 := by
  cases a with
  | none => exact quiet_refl _
  | some f => exact quiet_action f ev he w

theorem quiet_exit (w w' : World σ τ) (x : Option Exn) (h : exitSession A w = .ok (w', x)) : Quiet w w' := by
  unfold exitSession at h
  split at h
  · cases h; exact quiet_refl _
  · rename_i f hf
    have q1 := quiet_action f .exitSession rfl w
    split at h
    · rename_i w1 e he
      rw [he] at q1
      cases h; exact q1
    · rename_i w1 he
      rw [he] at q1
      have q2 := quiet_optAction A.exitGlobal .exitGlobal rfl w1
      split at h
      · rename_i hg
        rw [hg] at q2
        cases h; exact quiet_trans q1 q2
      · rename_i w2 hg
        rw [hg] at q2
        split at h
        · cases h
        · rename_i cmds _
          split at h
          · cases h; exact quiet_trans q1 (quiet_trans q2 ⟨[], by simp, by simp⟩)
          · cases h; exact quiet_trans q1 (quiet_trans q2 ⟨[.saved cmds], rfl, by simp [isRan]⟩)

theorem quiet_wrong (line : Str) (w : World σ τ) : Quiet w (wrongCommand A line w).1 := by
  unfold wrongCommand
  simp only
  split
  · exact quiet_trans (quiet_note w (.wrong line) rfl) (quiet_effect _ _)
  · exact quiet_note w (.wrong line) rfl

theorem quiet_report (line : Str) (e : Exn) (w : World σ τ) : Quiet w (reportException A line e w).1 := by
  unfold reportException
  simp only
  split
  · exact quiet_trans (quiet_note w (.reported line e) rfl) (quiet_effect _ _)
  · exact quiet_note w (.reported line e) rfl

theorem quiet_catchAll (line : Str) (w w' : World σ τ) (o : Outcome) (x : Option Exn) (h : catchAll A line (.ok (w, o)) = .ok (w', x)) :
    Quiet w w' := by
  unfold catchAll at h
  split at h
  · cases h
  · rename_i he; cases he; cases h; exact quiet_note _ (.unknown line) rfl
  · rename_i he; cases he
    simp only [Except.ok.injEq] at h
    rw [show w' = (reportException A line _ w).1 from by rw [h]]
    exact quiet_report _ _ _ _
  · rename_i he; cases he; cases h; exact quiet_refl _

/-- The lines of the history after a line was entered. -/
theorem newCommand_mem {h h' : History.History} {line : Str} (hh : History.newCommand h line = .ok h') (l : Str) (hl : l ∈ h'.buffer) :
    l ∈ line :: h.buffer := by
  unfold History.newCommand at hh
  simp only at hh
  split at hh
  · split at hh
    · cases hh
    · rename_i b rest hb
      split at hh
      · cases hh
        rw [hb]
        simp only [List.mem_cons]
        exact .inr (.inr hl)
      · cases hh
        simp only [List.mem_cons] at hl
        rw [hb]
        simp only [List.mem_cons]
        rcases hl with hl | hl
        · exact .inl hl
        · exact .inr (.inr hl)
  · split at hh
    · cases hh
      simp only [History.insert] at hl
      split at hl
      · exact List.dropLast_subset _ hl
      · exact hl
    · cases hh
      exact List.mem_cons_of_mem _ hl

theorem forget_mem {h h' : History.History} (hh : History.forgetLatest h = .ok h') (l : Str) (hl : l ∈ h'.buffer) : l ∈ h.buffer := by
  unfold History.forgetLatest at hh
  split at hh
  · cases hh
  · rename_i x rest hb
    cases hh
    rw [hb]; exact List.mem_cons_of_mem _ hl

theorem at_mem {h : History.History} {n : Nat} {l : Str} (hh : History.at h n = .ok (some l)) : l ∈ h.buffer := by
  unfold History.at at hh
  split at hh
  · cases hh
  · split at hh
    · cases hh
    · rename_i hs; cases hh; exact List.mem_of_getElem? hs

theorem sound_scanCurrent {line : Str} {toks : List Str} (hl : Lex.Line line toks) (ht : toks ≠ []) (S : List Str) (hS : line ∈ S)
    (w w' : World σ τ) (o : Outcome) (h : scanCurrent A toks w = .ok (w', o)) : SoundStep A.plat S w w' := by
  unfold scanCurrent at h
  split at h
  · cases h
  · rename_i path hp
    obtain ⟨_, _, _, _, _, evs, h6, h7, h8, _, _, _⟩ := good_scanCmds A toks ht path w w' o h
    refine ⟨evs, h6, ?_, ?_⟩
    · intro c vals s x hm
      obtain ⟨dis, c', args, vals', x', cs, e1, e2, e3, e4⟩ := h7 _ hm
      cases e1
      exact ⟨line, hS, toks, args, path, hl, hp, (designatesCmd_iff _ _ _ _ _).2 ⟨cs, e3⟩, e2, e4⟩
    · intro c vals s x hf
      have hall : ∀ e ∈ evs, isRan e = true := by
        intro e he
        obtain ⟨dis, c', args, vals', x', cs, e1, _⟩ := h7 _ he
        rw [e1]; rfl
      cases evs with
      | nil => cases hf
      | cons e0 evs =>
        rw [List.find?_cons_of_pos (hall e0 (by simp))] at hf
        cases hf
        obtain ⟨c', args, vals', x', cs, e1, e2, e3, e4⟩ := h8 _ rfl
        cases e1
        exact ⟨line, hS, toks, args, path, hl, hp, (designatesCmd_iff _ _ _ _ _).2 ⟨cs, e3⟩, e2, e4⟩

theorem sound_feed (fuel : Nat) : ∀ (line : Str) (w w' : World σ τ) (x : Option Exn), feed A fuel line w = .ok (w', x) →
    SoundStep A.plat (line :: w.hist.buffer) w w' := by
  induction fuel with
  | zero => intro line w w' x h; cases h
  | succ fuel ih =>
    intro line w w' x h
    simp only [feed, bind, Except.bind] at h
    cases hs : Split.split line with
    | error f => rw [hs] at h; cases h
    | ok toks =>
      rw [hs] at h
      simp only at h
      have hl := (split_iff line toks).1 hs
      by_cases ht : toks = []
      · rw [if_pos ht] at h; cases h; exact soundStep_refl _
      · rw [if_neg ht] at h
        cases hh : History.newCommand w.hist line with
        | error f => rw [hh] at h; cases h
        | ok h1 =>
          rw [hh] at h
          simp only at h
          -- the built-in commands
          have hg : ∀ w2 o, scanGlobal A (feed A fuel) toks { w with hist := h1 } = .ok (w2, o) →
              SoundStep A.plat (line :: w.hist.buffer) { w with hist := h1 } w2 := by
            intro w2 o hg
            unfold scanGlobal at hg
            split at hg
            · cases hg
            · split at hg
              · unfold helpCmd at hg
                simp only [bind, Except.bind] at hg
                split at hg
                · cases hg
                · rename_i he
                  split at he
                  · cases he
                  · cases he; cases hg; exact quiet_sound (quiet_note _ (.builtin .help) rfl)
              · split at hg
                · simp only [bind, Except.bind] at hg
                  split at hg
                  · cases hg
                  · rename_i v he
                    obtain ⟨w3, x3⟩ := v
                    cases hg
                    exact quiet_sound (quiet_trans (quiet_note _ (.builtin .exit) rfl) (quiet_exit A _ _ _ he))
                · split at hg
                  · split at hg
                    · cases hg; exact quiet_sound (quiet_note _ (.builtin .history) rfl)
                    · cases hg; exact quiet_sound (quiet_note _ (.builtin .history) rfl)
                  · cases hg; exact soundStep_refl _
            · split at hg
              · split at hg
                · cases hg; exact soundStep_refl _
                · cases hg; exact soundStep_refl _
                · cases hg
                · rename_i n hn
                  simp only [bind, Except.bind] at hg
                  have q0 : SoundStep A.plat (line :: w.hist.buffer) { w with hist := h1 } ({ w with hist := h1 }.note (.builtin (.bang n))) :=
                    quiet_sound (quiet_note _ (.builtin (.bang n)) rfl)
                  split at hg
                  · cases hg
                  · rename_i h2 hf
                    split at hg
                    · cases hg
                    · rename_i r hat
                      split at hg
                      · cases hg; exact q0
                      · rename_i cmd
                        split at hg
                        · cases hg
                        · rename_i v hv
                          obtain ⟨w3, x3⟩ := v
                          cases hg
                          obtain ⟨evs, e1, e2⟩ := ih _ _ _ _ hv
                          have hsub : ∀ l ∈ h2.buffer, l ∈ line :: w.hist.buffer := fun l hl => newCommand_mem hh l (forget_mem hf l hl)
                          refine soundStep_trans q0 ⟨evs, e1, soundLog_mono ?_ e2⟩
                          intro l hl
                          rw [List.mem_cons] at hl
                          rcases hl with rfl | hl
                          · exact hsub _ (at_mem hat)
                          · exact hsub _ hl
              · cases hg; exact soundStep_refl _
            · cases hg; exact soundStep_refl _
          -- the rest
          have base : SoundStep A.plat (line :: w.hist.buffer) w { w with hist := h1 } := ⟨[], by simp, soundLog_noRan (by simp)⟩
          split at h
          · rename_i w2 hgl
            have s1 := hg _ _ hgl
            split at h
            · rename_i w3 hsc
              have s2 := sound_scanCurrent A hl ht (line :: w.hist.buffer) (by simp) _ _ _ hsc
              have s3 := quiet_wrong A line w3
              split at h
              · rename_i w4 hw
                rw [hw] at s3
                exact soundStep_trans (soundStep_trans base s1) (soundStep_trans s2 (soundStep_trans (quiet_sound s3) (quiet_sound (quiet_catchAll A line _ _ _ _ h))))
              · rename_i w4 e hw
                rw [hw] at s3
                exact soundStep_trans (soundStep_trans base s1) (soundStep_trans s2 (soundStep_trans (quiet_sound s3) (quiet_sound (quiet_catchAll A line _ _ _ _ h))))
            · rename_i r hne
              cases hr : scanCurrent A toks w2 with
              | error f => rw [hr] at h; cases h
              | ok v =>
                obtain ⟨w3, o⟩ := v
                rw [hr] at h
                have s2 := sound_scanCurrent A hl ht (line :: w.hist.buffer) (by simp) _ _ _ hr
                exact soundStep_trans (soundStep_trans base s1) (soundStep_trans s2 (quiet_sound (quiet_catchAll A line _ _ _ _ h)))
          · rename_i r hne
            cases hr : scanGlobal A (feed A fuel) toks { w with hist := h1 } with
            | error f => rw [hr] at h; cases h
            | ok v =>
              obtain ⟨w3, o⟩ := v
              rw [hr] at h
              exact soundStep_trans (soundStep_trans base (hg _ _ hr)) (quiet_sound (quiet_catchAll A line _ _ _ _ h))

end
end Verif
