import Verif.Props.Loop
import Verif.Props.Tight

set_option linter.unusedSimpArgs false

/-!
# C53: before `Stop`; C72: a line that has arrived is not lost
-/

namespace Verif.Props
open Loop (St Move Frame Obs Call steps step)

section
variable {α : Type} {callable : α → Bool}

/-- Frames that occur if nobody stops the scheduler. -/
def calmFrame : Frame α → Bool
  | .lock c => match c with
    | .stop => false | .destroy => false | .run => false | _ => true
  | .stopSet _ => false | .stopNotify _ => false | .stopUnlock _ => false
  | .stoppedUnlock b => !b
  | _ => true

/-- Frames of `ExecOne` while the scheduler is running. -/
def execFrame : Frame α → Bool
  | .lock .exec => true
  | .execTest => true | .asleep => true | .woken => true | .execTake => true | .unlockTask _ => true | .start _ => true | .body _ => true
  | _ => false

def calm : List (Frame α) → Bool
  | [] => true
  | fr :: rest => calmFrame fr && (match rest with | .run :: _ => execFrame fr | _ => true) && calm rest

theorem calm_rest {fr : Frame α} {rest : List (Frame α)} (h : calm (fr :: rest) = true) : calm rest = true := by
  simp only [calm, Bool.and_eq_true] at h; exact h.2

theorem calm_next {fr fr' : Frame α} {rest : List (Frame α)} (h : calm (fr :: rest) = true) (h1 : calmFrame fr' = true) (h2 : execFrame fr = true → execFrame fr' = true) : calm (fr' :: rest) = true := by
  simp only [calm, Bool.and_eq_true] at h ⊢
  refine ⟨⟨h1, ?_⟩, h.2⟩
  have := h.1.2
  split at this
  · exact h2 this
  · rfl

theorem calm_notify {fs : List (Frame α)} (h : calm fs = true) : calm (Loop.notify fs) = true := by
  unfold Loop.notify
  split
  · exact calm_next h rfl (fun _ => rfl)
  · exact h

/-- Nobody has stopped the scheduler. -/
structure CalmRun (s : St α) : Prop where
  running : s.running = true
  threads : ∀ fs ∈ s.threads, calm fs = true
  run : ∀ t, .runReturned t ∉ s.log
  stopped : ∀ t, .stoppedReturned t true ∉ s.log

theorem calmrun_set {s : St α} (h : CalmRun s) (t : Nat) {fs : List (Frame α)} (hf : calm fs = true) : CalmRun (s.set t fs) := by
  refine ⟨h.running, fun x hx => ?_, h.run, h.stopped⟩
  rcases List.mem_or_eq_of_mem_set hx with hx | rfl
  · exact h.threads x hx
  · exact hf

theorem calmrun_note {s : St α} (h : CalmRun s) (o : Obs α) (h1 : ∀ t, o ≠ .runReturned t) (h2 : ∀ t, o ≠ .stoppedReturned t true) : CalmRun (s.note o) := by
  refine ⟨h.running, h.threads, fun t ht => ?_, fun t ht => ?_⟩
  · rcases List.mem_append.1 ht with ht | ht
    · exact h.run t ht
    · exact h1 t (List.mem_singleton.1 ht).symm
  · rcases List.mem_append.1 ht with ht | ht
    · exact h.stopped t ht
    · exact h2 t (List.mem_singleton.1 ht).symm

theorem calmrun_finish {s : St α} (h : CalmRun s) (t : Nat) (b : Bool) {rest : List (Frame α)} (hc : calm rest = true) (hb : b = true ∨ ∀ r, rest ≠ .run :: r) : CalmRun (Loop.finish s t b rest) := by
  unfold Loop.finish
  split
  · rename_i r
    rcases hb with rfl | hb
    · exact calmrun_set (calmrun_note h _ (by simp) (by simp)) t (by simp only [calm, Bool.and_eq_true]; exact ⟨⟨rfl, rfl⟩, by simpa [calm] using hc⟩)
    · exact absurd rfl (hb r)
  · exact calmrun_set (calmrun_note h _ (by simp) (by simp)) t hc

theorem calm_poll {fr : Frame α} {rest : List (Frame α)} (h : calm (fr :: rest) = true) (hf : execFrame fr = false) : ∀ r, rest ≠ .run :: r := by
  rintro r rfl
  simp [calm, hf] at h

theorem calmrun_go {s s' : St α} {t : Nat} {fr : Frame α} {rest : List (Frame α)} (h : CalmRun s) (hc : calm (fr :: rest) = true) (hs : Loop.go callable s t fr rest = some s') : CalmRun s' := by
  have hr := calm_rest hc
  have touch : ∀ {o : Option Nat}, CalmRun ({ s.touch with owner := o }) := fun {o} => ⟨h.running, h.threads, h.run, h.stopped⟩
  cases fr <;> simp only [Loop.go] at hs
  case lock c =>
    split at hs
    · cases hs
      refine calmrun_set touch t ?_
      have := hc
      simp only [calm, Bool.and_eq_true] at this
      cases c <;> simp [calmFrame] at this <;> exact calm_next hc rfl (fun h => by simp [execFrame, Loop.locked] at h ⊢)
    · cases hs
  case stopSet d => simp [calm, calmFrame] at hc
  case stopNotify d => simp [calm, calmFrame] at hc
  case stopUnlock d => simp [calm, calmFrame] at hc
  case stoppedRead => cases hs; exact calmrun_set (touch (o := s.owner)) t (calm_next hc (by simp [calmFrame, h.running]) (fun h => by cases h))
  case stoppedUnlock b =>
    cases hs
    have hb : b = false := by simp only [calm, Bool.and_eq_true, calmFrame] at hc; simpa using hc.1.1
    subst hb
    exact calmrun_set (calmrun_note touch _ (by simp) (by simp)) t hr
  case postPush f =>
    cases hs
    exact calmrun_set (calmrun_note (s := { s.touch with tasks := s.tasks ++ [f] }) ⟨h.running, h.threads, h.run, h.stopped⟩ _ (by simp) (by simp)) t (calm_next hc rfl (fun h => by cases h))
  case postNotify =>
    cases hs
    refine calmrun_set (s := { s.touch with threads := s.threads.map Loop.notify }) ⟨h.running, fun fs hfs => ?_, h.run, h.stopped⟩ t (calm_next hc rfl (fun h => by cases h))
    obtain ⟨x, hx, rfl⟩ := List.mem_map.1 hfs
    exact calm_notify (h.threads x hx)
  case postUnlock => cases hs; exact calmrun_set touch t hr
  case execTest =>
    split at hs
    · cases hs; exact calmrun_set (touch (o := s.owner)) t (calm_next hc rfl (fun _ => rfl))
    · cases hs; exact calmrun_set touch t (calm_next hc rfl (fun _ => rfl))
  case asleep => cases hs
  case woken =>
    split at hs
    · cases hs; exact calmrun_set touch t (calm_next hc rfl (fun _ => rfl))
    · cases hs
  case execTake =>
    rw [if_pos h.running] at hs
    split at hs
    · cases hs; exact ⟨h.running, h.threads, h.run, h.stopped⟩
    · rename_i f fs _
      cases hs
      exact calmrun_set (s := { s.touch with tasks := fs, taken := s.taken ++ [f] }) ⟨h.running, h.threads, h.run, h.stopped⟩ t (calm_next hc rfl (fun _ => rfl))
  case pollTake =>
    rw [if_pos h.running] at hs
    split at hs
    · cases hs; exact calmrun_set (touch (o := s.owner)) t (calm_next hc rfl (fun h => by cases h))
    · rename_i f fs _
      cases hs
      exact calmrun_set (s := { s.touch with tasks := fs, taken := s.taken ++ [f] }) ⟨h.running, h.threads, h.run, h.stopped⟩ t (calm_next hc rfl (fun h => by cases h))
  case unlockFalse => cases hs; exact calmrun_finish touch t false hr (.inr (calm_poll hc rfl))
  case unlockTask f => cases hs; exact calmrun_set touch t (calm_next hc rfl (fun _ => rfl))
  case start f =>
    split at hs
    · cases hs; exact calmrun_set (calmrun_note h _ (by simp) (by simp)) t (calm_next hc rfl (fun _ => rfl))
    · cases hs; exact calmrun_finish h t true hr (.inl rfl)
  case body f => cases hs
  case run => cases hs

theorem calmrun_step {s s' : St α} {t : Nat} {m : Move α} (h : CalmRun s) (hm : m ≠ .call .stop ∧ m ≠ .call .destroy) (hs : step callable s t m = some s') : CalmRun s' := by
  unfold Loop.step at hs
  split at hs
  · cases hs
  · rename_i fs hfs
    have hc := h.threads fs (List.mem_of_getElem? hfs)
    have hen : ∀ (c : Call α) (rest : List (Frame α)), Move.call c ≠ .call .stop ∧ Move.call c ≠ (.call .destroy : Move α) → calm rest = true → (∀ r, rest ≠ .run :: r) → calm (Loop.enter c ++ rest) = true := by
      intro c rest hm hr hn
      have : (match rest with | .run :: _ => execFrame (Frame.lock c) | _ => true) = true := by
        cases rest with
        | nil => rfl
        | cons fr r => cases fr <;> first | rfl | exact absurd rfl (hn _)
      cases c with
      | stop => exact absurd rfl hm.1
      | destroy => exact absurd rfl hm.2
      | run =>
        simp only [Loop.enter, List.cons_append, List.nil_append, calm, calmFrame, execFrame, Bool.true_and]
        rw [hr]
      | _ => simp only [Loop.enter, List.cons_append, List.nil_append, calm, calmFrame, Bool.true_and, this, hr]
    split at hs
    · rename_i c
      cases hs
      have := hen c [] hm rfl (by simp)
      rw [List.append_nil] at this
      exact calmrun_set h t this
    · rename_i c f rest
      cases hs
      exact calmrun_set h t (hen c _ hm hc (by simp))
    · exact calmrun_go h hc hs
    · cases hs; exact calmrun_set h t (calm_next hc rfl (fun _ => rfl))
    · cases hs; exact calmrun_finish h t true (calm_rest hc) (.inl rfl)
    · rename_i f rest
      cases hs
      refine calmrun_set h t ?_
      unfold Loop.unwind
      split
      · exact calm_rest (calm_rest hc)
      · exact calm_rest hc
    · cases hs

/-- **C53** As long as nobody calls `Stop` or destroys the scheduler, `Run` does not return (otherwise than by an exception of a task) and `Stopped` is false. -/
theorem C53_before (n : Nat) (ms : List (Nat × Move α)) (s : St α) (h : steps callable (St.init n) ms = some s) (hm : ∀ t, (t, .call .stop) ∉ ms ∧ (t, .call .destroy) ∉ ms) (t : Nat) :
    .runReturned t ∉ s.log ∧ .stoppedReturned t true ∉ s.log := by
  have main : ∀ (ms : List (Nat × Move α)) (s s' : St α), CalmRun s → (∀ t, (t, .call .stop) ∉ ms ∧ (t, .call .destroy) ∉ ms) → steps callable s ms = some s' → CalmRun s' := by
    intro ms
    induction ms with
    | nil => intro s s' h _ hs; cases hs; exact h
    | cons a ms ih =>
      intro s s' h hm hs
      obtain ⟨t, m⟩ := a
      simp only [Loop.steps] at hs
      cases e : step callable s t m with
      | none => rw [e] at hs; cases hs
      | some s1 =>
        rw [e] at hs
        refine ih s1 s' (calmrun_step h ⟨?_, ?_⟩ e) (fun t => ⟨fun hx => (hm t).1 (by simp [hx]), fun hx => (hm t).2 (by simp [hx])⟩) hs
        · rintro rfl; exact (hm t).1 (by simp)
        · rintro rfl; exact (hm t).2 (by simp)
  have := main ms (St.init n) s ⟨rfl, fun fs hfs => by rw [List.eq_of_mem_replicate hfs]; rfl, by simp [Loop.St.init], by simp [Loop.St.init]⟩ hm h
  exact ⟨this.run t, this.stopped t⟩

/-- A thread in `Run` executes a task and waits for the next one; another has asked `Stopped`. -/
example : ∃ s : St Nat, steps (fun _ => true) (St.init 2) ([(0, .call .run), (0, .go), (0, .go), (1, .call (.post 7)), (1, .go), (1, .go), (1, .go), (1, .go), (0, .go), (0, .go), (0, .go), (0, .go), (0, .go), (0, .ret), (0, .go), (0, .go),
    (1, .call .stopped), (1, .go), (1, .go), (1, .go)]) = some s ∧ s.log = [.posted 7, .began 0 7, .result 0 true, .stoppedReturned 1 false] ∧ s.threads = [[.asleep, .run], []] := ⟨_, rfl, rfl, rfl⟩

end

section
variable {σ τ : Type}

/-- **C72** A line that has arrived is not lost if the input fails then: as long as the session exists, the failure is noticed when all lines have been read. -/
theorem C72_not_lost (A : App σ τ) (fuel : Nat) (s : Async.St σ τ) (hl : s.live = true) (l rest : Str) (hn : b%'\n' ∉ l) (hb : s.buf = l ++ b%'\n' :: rest) : Async.step A fuel s .fail = .ok (s, none) := by
  have hc : FileSession.cut s.buf = some (l, rest) := by rw [hb]; exact cut_some hn rest
  simp [Async.step, hc, hl]

/-- A session in which `x` has arrived, and then the input fails. -/
example : ((Async.create Sample.app Sample.world Sample.world.io).bind (fun s => Async.run Sample.app 3 [.data bs!"x\n", .fail, .line] s)).map (fun r => (r.1.fed, r.1.reading)) = .ok ([bs!"x"], true) := by rfl

end
end Verif.Props
