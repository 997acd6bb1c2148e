import Verif.Proofs.AsioScheduler

set_option linter.unusedSimpArgs false

/-!
# Properties C86-C89: the asio scheduler
-/

namespace Verif.AsioScheduler
section
variable {α : Type} {callable : α → Bool}

/-- Methods that run tasks. -/
def executes : Call α → Bool
  | .exec _ => true
  | _ => false

/-- A thread that is in no method, or in one that runs no tasks. -/
def Quiet (fs : List (Frame α)) : Prop := fs = [] ∨ fs = [.stopReset] ∨ fs = [.stopContext] ∨ (∃ f, fs = [.post f]) ∨ fs = [.stopped]

theorem quiet_hand {fs : List (Frame α)} (h : Quiet fs) : hand callable fs = [] := by
  rcases h with rfl | rfl | rfl | ⟨f, rfl⟩ | rfl <;> rfl

theorem quiet_step {s s' : St α} {m : Move α} {t : Nat} {fs : List (Frame α)} (hm : m.thread = some t) (ht : s.threads[t]? = some fs) (hq : Quiet fs)
    (hc : ∀ c, m = .call t c → executes c = false) (h : step callable s m = some s') :
    ∃ fs', s'.threads = s.threads.set t fs' ∧ Quiet fs' ∧ s'.taken = s.taken ∧ begins s'.log = begins s.log := by
  cases m with
  | begin => cases hm
  | complete f => cases hm
  | call t' c =>
    cases hm
    have he := hc c rfl
    simp only [step, ht] at h
    rcases hq with rfl | rfl | rfl | ⟨f, rfl⟩ | rfl
    · cases h
      refine ⟨[enter c], ?_, ?_, ?_, ?_⟩
      · cases c <;> rfl
      · cases c
        · exact .inr (.inl rfl)
        · exact .inr (.inr (.inr (.inr rfl)))
        · exact .inr (.inr (.inr (.inl ⟨_, rfl⟩)))
        · cases he
      · cases c <;> rfl
      · cases c <;> simp [St.called, St.note, St.set, begins]
    all_goals cases h
  | go t' =>
    cases hm
    simp only [step, ht] at h
    rcases hq with rfl | rfl | rfl | ⟨f, rfl⟩ | rfl
    · cases h
    · cases h
      refine ⟨[.stopContext], ?_, .inr (.inr (.inl rfl)), ?_, ?_⟩ <;> unfold St.reset <;> split <;> rfl
    · cases h; exact ⟨[], rfl, .inl rfl, rfl, by simp [St.set, St.note, begins]⟩
    · cases h; exact ⟨[], rfl, .inl rfl, rfl, by simp [St.set, St.note, begins]⟩
    · cases h; exact ⟨[], rfl, .inl rfl, rfl, by simp [St.set, St.note, begins]⟩
  | ret t' =>
    cases hm
    simp only [step, ht] at h
    rcases hq with rfl | rfl | rfl | ⟨f, rfl⟩ | rfl <;> cases h
  | throw t' =>
    cases hm
    simp only [step, ht] at h
    rcases hq with rfl | rfl | rfl | ⟨f, rfl⟩ | rfl <;> cases h

theorem flatMap_one {β γ : Type} (f : β → List γ) : ∀ (l : List β) (e : Nat) (a : β), l[e]? = some a → (∀ t b, t ≠ e → l[t]? = some b → f b = []) → l.flatMap f = f a := by
  intro l
  induction l with
  | nil => intro e a h; simp at h
  | cons x l ih =>
    intro e a h ho
    cases e with
    | zero =>
      simp at h; subst h
      have : l.flatMap f = [] := by
        rw [List.flatMap_eq_nil_iff]
        intro b hb
        obtain ⟨t, ht⟩ := List.mem_iff_getElem?.1 hb
        exact ho (t + 1) b (by simp) (by simpa using ht)
      simp [this]
    | succ e =>
      simp at h
      have h0 : f x = [] := ho 0 x (by simp) rfl
      rw [List.flatMap_cons, h0, List.nil_append]
      exact ih e a h (fun t b hne hb => ho (t + 1) b (by simpa using hne) (by simpa using hb))

theorem flatMap_same {β γ : Type} (f : β → List γ) (b : β) (hb : f b = []) : ∀ (l : List β) (t : Nat) (a : β), l[t]? = some a → f a = [] → (l.set t b).flatMap f = l.flatMap f := by
  intro l
  induction l with
  | nil => intro t a h; simp at h
  | cons x l ih =>
    intro t a h ha
    cases t with
    | zero => simp at h; subst h; simp [ha, hb]
    | succ t => simp at h; simp [ih t a h ha]

structure Sole (callable : α → Bool) (e : Nat) (s : St α) : Prop where
  others : ∀ (t : Nat) (fs : List (Frame α)), t ≠ e → s.threads[t]? = some fs → Quiet fs
  order : begins s.log ++ hands callable s = s.taken.filter callable

theorem sole_step {e : Nat} {s s' : St α} (I : Inv callable s) (S : Sole callable e s) {m : Move α} (hm : ∀ t c, m = .call t c → executes c = true → t = e)
    (h : step callable s m = some s') : Sole callable e s' := by
  rcases step_eff I.wf h with ⟨_, h1, h2, _, h4, _, _⟩ | ⟨t, fs, fs', extra, ht, hmt, E⟩
  · refine ⟨fun t fs hne ht => S.others t fs hne (h1 ▸ ht), ?_⟩
    have := S.order
    unfold hands at this ⊢
    rw [h4, h1, h2]; exact this
  · by_cases hte : t = e
    · subst hte
      have hoth : ∀ (t' : Nat) (fs1 : List (Frame α)), t' ≠ t → s'.threads[t']? = some fs1 → Quiet fs1 := by
        intro t' fs1 hne h1
        rw [E.threads, List.getElem?_set_ne (fun e => hne e.symm)] at h1
        exact S.others t' fs1 hne h1
      refine ⟨hoth, ?_⟩
      have hself : s'.threads[t]? = some fs' := by rw [E.threads]; exact get_set _ ht
      have e1 : hands callable s = hand callable fs := flatMap_one _ _ t fs ht (fun t' b hne hb => quiet_hand (S.others t' b hne hb))
      have e2 : hands callable s' = hand callable fs' := flatMap_one _ _ t fs' hself (fun t' b hne hb => quiet_hand (hoth t' b hne hb))
      have := S.order
      rw [e1] at this
      rw [e2, E.begins, this, E.taken, List.filter_append]
    · have hq := S.others t fs hte ht
      obtain ⟨fs1, h1, h2, h3, h4⟩ := quiet_step hmt ht hq (by
        rintro c rfl
        cases he : executes c with
        | false => rfl
        | true => exact absurd (hm t c rfl he) hte) h
      constructor
      · intro t' fs2 hne h0
        rw [h1] at h0
        by_cases htt : t = t'
        · subst htt; rw [get_set _ ht] at h0; cases h0; exact h2
        · rw [List.getElem?_set_ne htt] at h0; exact S.others t' fs2 hne h0
      · have := S.order
        unfold hands at this ⊢
        rw [h4, h1, h3, flatMap_same _ fs1 (quiet_hand h2) _ t fs ht (quiet_hand hq)]
        exact this

theorem sole_steps {e : Nat} {s s' : St α} (I : Inv callable s) (S : Sole callable e s) {ms : List (Move α)} (hm : ∀ t c, .call t c ∈ ms → executes c = true → t = e)
    (h : steps callable s ms = some s') : Sole callable e s' := by
  induction ms generalizing s with
  | nil => cases h; exact S
  | cons m ms ih =>
    simp only [steps, Option.bind_eq_some_iff] at h
    obtain ⟨s1, h1, h2⟩ := h
    exact ih (inv_step I h1) (sole_step I S (by rintro t c rfl; exact hm t c (by simp)) h1) (fun t c hc => hm t c (by simp [hc])) h2

theorem sole_init (e : Nat) (owned resets : Bool) (n : Nat) : Sole callable e (St.init (α := α) owned resets n) := by
  refine ⟨?_, ?_⟩
  · intro t fs _ ht
    simp only [St.init, List.getElem?_replicate] at ht
    split at ht <;> cases ht
    exact .inl rfl
  · simp [St.init, begins, hands, hand]

end
end Verif.AsioScheduler

namespace Verif.Props
open Verif.AsioScheduler

section
variable {α : Type} {callable : α → Bool}

/-! ### C86 -/

/-- **C86** For any number of threads doing anything, and for either constructor: the functions started, those taken from the queue and about to be started, and those in the queue are together exactly the functions
    posted (and the handlers of operations that others completed), each as often as it was posted (empty functions apart). -/
theorem C86_once (owned resets : Bool) (n : Nat) (ms : List (Move α)) (s : AsioScheduler.St α) (h : AsioScheduler.steps callable (.init owned resets n) ms = some s) :
    (begins s.log ++ hands callable s ++ s.queue.filter callable).Perm ((queuedOf s.log).filter callable) := by
  have I := inv_steps (inv_init callable owned resets n) h
  rw [I.queue, List.filter_append]
  exact I.once.append_right _

/-- **C86** (part) If only one thread runs tasks (others may post, stop, ...), functions are started in the order in which they were posted. Missing: several such threads (refuted below). -/
theorem C86_order_partial (owned resets : Bool) (n e : Nat) (ms : List (Move α)) (hm : ∀ t c, .call t c ∈ ms → executes c = true → t = e) (s : AsioScheduler.St α)
    (h : AsioScheduler.steps callable (.init owned resets n) ms = some s) : begins s.log ++ hands callable s ++ s.queue.filter callable = (queuedOf s.log).filter callable := by
  have I := inv_steps (inv_init callable owned resets n) h
  have S := sole_steps (inv_init callable owned resets n) (sole_init e owned resets n) hm h
  rw [I.queue, List.filter_append, S.order]

end

def asioPost (t f : Nat) : List (Move Nat) := [.call t (.post f), .go t]

/-- **C86** Refuted: with two threads running tasks, the second function can be started before the first. -/
theorem C86_order_refuted : ∃ (ms : List (Move Nat)) (s : AsioScheduler.St Nat), AsioScheduler.steps (fun _ => true) (.init true true 2) ms = some s ∧
    queuedOf s.log = [1, 2] ∧ begins s.log = [2, 1] :=
  ⟨asioPost 0 1 ++ asioPost 0 2 ++ [.call 0 (.exec .run), .go 0, .go 0, .call 1 (.exec .run), .go 1, .go 1, .go 1, .go 0], _, rfl, rfl, rfl⟩

/-- **C86** Refuted: an empty function is not ignored, as it is by `LoopScheduler`: an exception leaves `Run`. -/
theorem C86_empty_refuted : ∃ (ms : List (Move Nat)) (s : AsioScheduler.St Nat), AsioScheduler.steps (fun f => f != 0) (.init true true 1) ms = some s ∧
    s.log = [.queued 0, .threw 0 .run] :=
  ⟨asioPost 0 0 ++ [.call 0 (.exec .run), .go 0, .go 0, .go 0], _, rfl, rfl⟩

/-- One thread runs two functions, the first of which posts the second. -/
example : ∃ s : AsioScheduler.St Nat, AsioScheduler.steps (fun _ => true) (.init true false 2)
    (asioPost 1 7 ++ [.call 0 (.exec .run), .go 0, .go 0, .go 0] ++ asioPost 0 8 ++ [.ret 0, .go 0, .go 0, .throw 0]) = some s ∧
    begins s.log = [7, 8] ∧ s.queue = [] ∧ hands (fun _ => true) s = [] := ⟨_, rfl, rfl, rfl, rfl⟩

/-! ### C87 -/

section
variable {α : Type} {callable : α → Bool}

/-- `Stop` has not been called. -/
def Unstopped (log : List (Obs α)) : Prop := ∀ t, .stopCalled t ∉ log

/-- A scheduler that owns its context, before `Stop` is called. -/
structure Live (s : AsioScheduler.St α) : Prop where
  stopped : s.stopped = false
  guard : s.guard = true
  calm : ∀ (t : Nat) (fr : AsioScheduler.Frame α) (rest : List (AsioScheduler.Frame α)), s.threads[t]? = some (fr :: rest) → fr ≠ .stopReset ∧ fr ≠ .stopContext

theorem live_set {s : AsioScheduler.St α} (L : Live s) {s' : AsioScheduler.St α} {t : Nat} {fs fs' : List (AsioScheduler.Frame α)} (ht : s.threads[t]? = some fs) (h1 : s'.stopped = false) (h2 : s'.guard = true)
    (h3 : s'.threads = s.threads.set t fs') (h4 : ∀ fr rest, fs' = fr :: rest → fr ≠ .stopReset ∧ fr ≠ .stopContext) : Live s' := by
  refine ⟨h1, h2, ?_⟩
  intro t' fr rest h
  rw [h3] at h
  by_cases he : t = t'
  · subst he; rw [get_set _ ht] at h; exact h4 fr rest (Option.some.inj h)
  · rw [List.getElem?_set_ne he] at h; exact L.calm t' fr rest h

theorem asio_log_grows {s s' : AsioScheduler.St α} {m : Move α} (h : AsioScheduler.step callable s m = some s') : ∃ l, s'.log = s.log ++ l := by
  cases m with
  | begin => cases h; exact ⟨[], by simp⟩
  | complete f =>
    simp only [AsioScheduler.step] at h
    split at h <;> cases h
    exact ⟨_, rfl⟩
  | call t c =>
    simp only [AsioScheduler.step] at h
    split at h
    · cases h; cases c <;> first | exact ⟨_, rfl⟩ | exact ⟨[], by simp [AsioScheduler.St.called, AsioScheduler.St.set]⟩
    · cases h; cases c <;> first | exact ⟨_, rfl⟩ | exact ⟨[], by simp [AsioScheduler.St.called, AsioScheduler.St.set]⟩
    · cases h
  | go t =>
    simp only [AsioScheduler.step] at h
    split at h
    · rename_i fr rest ht
      cases fr <;> simp only [AsioScheduler.go] at h
      case stopReset => cases h; refine ⟨[], ?_⟩; unfold AsioScheduler.St.reset; split <;> simp [AsioScheduler.St.set, AsioScheduler.St.release]
      case stopContext => cases h; exact ⟨_, rfl⟩
      case post f => cases h; exact ⟨_, rfl⟩
      case stopped => cases h; exact ⟨_, rfl⟩
      case check k =>
        split at h <;> cases h
        · exact ⟨_, rfl⟩
        · exact ⟨[], by simp [AsioScheduler.St.set]⟩
      case next k =>
        split at h
        · cases h; exact ⟨_, rfl⟩
        · split at h
          · split at h
            · cases h; exact ⟨_, rfl⟩
            · cases h
          · cases h; exact ⟨[], by simp [AsioScheduler.St.set]⟩
      case start k f =>
        split at h <;> cases h <;> exact ⟨_, rfl⟩
      case body k f => cases h
    · cases h
  | ret t =>
    simp only [AsioScheduler.step] at h
    split at h
    · cases h; exact ⟨[], by simp [AsioScheduler.St.set, AsioScheduler.St.release]⟩
    · cases h; exact ⟨_, rfl⟩
    · cases h
  | throw t =>
    simp only [AsioScheduler.step] at h
    split at h
    · cases h; exact ⟨_, rfl⟩
    · cases h

theorem busy_counts {s : AsioScheduler.St α} (I : AsioScheduler.Inv callable s) (L : Live s) {t : Nat} {fr : AsioScheduler.Frame α} {rest : List (AsioScheduler.Frame α)}
    (ht : s.threads[t]? = some (fr :: rest)) (hb : busy fr = true) : 2 ≤ s.work := by
  have hc := I.count
  have hm : (fr :: rest) ∈ s.threads := List.mem_of_getElem? ht
  have : 0 < (busies s).length := List.length_pos_of_mem (a := fr) (by
    unfold busies
    exact List.mem_flatMap.2 ⟨_, hm, List.mem_filter.2 ⟨List.mem_cons_self, hb⟩⟩)
  rw [L.guard] at hc
  simp only [Bool.toNat_true] at hc
  omega

theorem live_step {s s' : AsioScheduler.St α} {m : Move α} (I : AsioScheduler.Inv callable s) (L : Live s) (h : AsioScheduler.step callable s m = some s') (hu : Unstopped s'.log) : Live s' := by
  have hw : 1 ≤ s.work := by have := I.count; rw [L.guard] at this; simp at this; omega
  have rel : ∀ {t : Nat} {fr : AsioScheduler.Frame α} {rest : List (AsioScheduler.Frame α)}, s.threads[t]? = some (fr :: rest) → busy fr = true → s.release.stopped = false := by
    intro t fr rest ht hb
    have := busy_counts I L ht hb
    simp only [AsioScheduler.St.release, L.stopped, Bool.false_or, beq_eq_false_iff_ne]
    omega
  have tail : ∀ {t : Nat} {fr : AsioScheduler.Frame α} {rest : List (AsioScheduler.Frame α)}, s.threads[t]? = some (fr :: rest) →
      ∀ fr' rest', rest = fr' :: rest' → fr' ≠ AsioScheduler.Frame.stopReset ∧ fr' ≠ .stopContext := by
    intro t fr rest ht fr' rest' he
    have := I.wf t _ ht
    subst he
    simp only [AsioScheduler.wf, List.tail_cons, List.all_cons, Bool.and_eq_true] at this
    cases fr' <;> first | (cases this.1; done) | exact ⟨nofun, nofun⟩
  cases m with
  | begin => cases h; exact ⟨L.stopped, L.guard, L.calm⟩
  | complete f =>
    simp only [AsioScheduler.step] at h
    split at h <;> cases h
    exact ⟨L.stopped, L.guard, L.calm⟩
  | call t c =>
    simp only [AsioScheduler.step] at h
    cases c with
    | stop =>
      exfalso
      split at h
      · cases h; exact hu t (by simp [AsioScheduler.St.called, AsioScheduler.St.note, AsioScheduler.St.set])
      · cases h; exact hu t (by simp [AsioScheduler.St.called, AsioScheduler.St.note, AsioScheduler.St.set])
      · cases h
    | _ =>
      split at h
      · rename_i ht
        cases h
        exact live_set L ht L.stopped L.guard rfl (by rintro fr rest h0; cases h0; exact ⟨nofun, nofun⟩)
      · rename_i ht
        cases h
        exact live_set L ht L.stopped L.guard rfl (by rintro fr rest h0; cases h0; exact ⟨nofun, nofun⟩)
      · cases h
  | go t =>
    simp only [AsioScheduler.step] at h
    split at h
    · rename_i fr rest ht
      cases fr <;> simp only [AsioScheduler.go] at h
      case stopReset => exact absurd rfl (L.calm t _ _ ht).1
      case stopContext => exact absurd rfl (L.calm t _ _ ht).2
      case post f => cases h; exact live_set L ht L.stopped L.guard rfl (tail ht)
      case stopped => cases h; exact live_set L ht L.stopped L.guard rfl (tail ht)
      case check k =>
        split at h
        · omega
        · cases h; exact live_set L ht L.stopped L.guard rfl (by rintro fr rest h0; cases h0; exact ⟨nofun, nofun⟩)
      case next k =>
        split at h
        · cases h; exact live_set L ht L.stopped L.guard rfl (tail ht)
        · split at h
          · split at h
            · cases h; exact live_set L ht L.stopped L.guard rfl (tail ht)
            · cases h
          · cases h; exact live_set L ht L.stopped L.guard rfl (by rintro fr rest h0; cases h0; exact ⟨nofun, nofun⟩)
      case start k f =>
        split at h <;> cases h
        · exact live_set L ht L.stopped L.guard rfl (by rintro fr rest h0; cases h0; exact ⟨nofun, nofun⟩)
        · exact live_set L ht (rel ht rfl) L.guard rfl (tail ht)
      case body k f => cases h
    · cases h
  | ret t =>
    simp only [AsioScheduler.step] at h
    split at h
    · rename_i ht
      cases h; exact live_set L ht (rel ht rfl) L.guard rfl (by rintro fr rest h0; cases h0; exact ⟨nofun, nofun⟩)
    · rename_i ht
      cases h; exact live_set L ht (rel ht rfl) L.guard rfl (tail ht)
    · cases h
  | throw t =>
    simp only [AsioScheduler.step] at h
    split at h
    · rename_i ht
      cases h; exact live_set L ht (rel ht rfl) L.guard rfl (tail ht)
    · cases h

theorem asio_log_steps {s s' : AsioScheduler.St α} {ms : List (Move α)} (h : AsioScheduler.steps callable s ms = some s') : ∃ l, s'.log = s.log ++ l := by
  induction ms generalizing s with
  | nil => cases h; exact ⟨[], by simp⟩
  | cons m ms ih =>
    simp only [AsioScheduler.steps, Option.bind_eq_some_iff] at h
    obtain ⟨s1, h1, h2⟩ := h
    obtain ⟨l1, e1⟩ := asio_log_grows h1
    obtain ⟨l2, e2⟩ := ih h2
    exact ⟨l1 ++ l2, by rw [e2, e1, List.append_assoc]⟩

theorem live_steps {s s' : AsioScheduler.St α} {ms : List (Move α)} (I : AsioScheduler.Inv callable s) (L : Live s) (h : AsioScheduler.steps callable s ms = some s') (hu : Unstopped s'.log) : Live s' := by
  induction ms generalizing s with
  | nil => cases h; exact L
  | cons m ms ih =>
    simp only [AsioScheduler.steps, Option.bind_eq_some_iff] at h
    obtain ⟨s1, h1, h2⟩ := h
    obtain ⟨l, hl⟩ := asio_log_steps h2
    exact ih (inv_step I h1) (live_step I L h1 (fun t ht => hu t (by rw [hl]; simp [ht]))) h2

theorem live_init (resets : Bool) (n : Nat) : Live (AsioScheduler.St.init (α := α) true resets n) := by
  refine ⟨rfl, rfl, ?_⟩
  intro t fr rest h
  simp only [AsioScheduler.St.init, List.getElem?_replicate] at h
  split at h <;> cases h

/-- **C87** A scheduler that owns its context does not return from `Run` before someone has called `Stop`, and does not say that it is stopped. -/
theorem C87_runs_until_stop (resets : Bool) (n : Nat) (ms : List (Move α)) (s : AsioScheduler.St α) (h : AsioScheduler.steps callable (.init true resets n) ms = some s) (hu : Unstopped s.log)
    (t : Nat) : .returned t .run ∉ s.log ∧ .stoppedReturned t true ∉ s.log := by
  suffices H : ∀ (ms : List (Move α)) (s0 s : AsioScheduler.St α), AsioScheduler.Inv callable s0 → Live s0 → (.returned t .run ∉ s0.log ∧ .stoppedReturned t true ∉ s0.log) →
      AsioScheduler.steps callable s0 ms = some s → Unstopped s.log → .returned t .run ∉ s.log ∧ .stoppedReturned t true ∉ s.log from
    H ms _ s (inv_init callable true resets n) (live_init resets n) ⟨nofun, nofun⟩ h hu
  intro ms
  induction ms with
  | nil => intro s0 s _ _ h0 h _; cases h; exact h0
  | cons m ms ih =>
    intro s0 s I L h0 h hu
    simp only [AsioScheduler.steps, Option.bind_eq_some_iff] at h
    obtain ⟨s1, h1, h2⟩ := h
    have hw : 1 ≤ s0.work := by have := I.count; rw [L.guard] at this; simp at this; omega
    obtain ⟨l, hl⟩ := asio_log_steps h2
    refine ih s1 s (inv_step I h1) (live_step I L h1 (fun t ht => hu t (by rw [hl]; simp [ht]))) ?_ h2 hu
    -- the step adds neither
    cases m with
    | begin => cases h1; exact h0
    | complete f =>
      simp only [AsioScheduler.step] at h1
      split at h1 <;> cases h1
      simpa [AsioScheduler.St.note] using h0
    | call t' c =>
      simp only [AsioScheduler.step] at h1
      split at h1
      · cases h1; cases c <;> simpa [AsioScheduler.St.called, AsioScheduler.St.note, AsioScheduler.St.set] using h0
      · cases h1; cases c <;> simpa [AsioScheduler.St.called, AsioScheduler.St.note, AsioScheduler.St.set] using h0
      · cases h1
    | go t' =>
      simp only [AsioScheduler.step] at h1
      split at h1
      · rename_i fr rest ht
        cases fr <;> simp only [AsioScheduler.go] at h1
        case stopReset => exact absurd rfl (L.calm t' _ _ ht).1
        case stopContext => exact absurd rfl (L.calm t' _ _ ht).2
        case post f => cases h1; simpa [AsioScheduler.St.note, AsioScheduler.St.set] using h0
        case stopped => cases h1; rw [L.stopped]; simpa [AsioScheduler.St.note, AsioScheduler.St.set] using h0
        case check k =>
          split at h1
          · omega
          · cases h1; exact h0
        case next k =>
          rw [if_neg (by simp [L.stopped])] at h1
          split at h1
          · split at h1
            · rename_i hk
              subst hk
              cases h1; simpa [AsioScheduler.St.note, AsioScheduler.St.set] using h0
            · cases h1
          · cases h1; exact h0
        case start k f =>
          split at h1 <;> cases h1 <;> simpa [AsioScheduler.St.note, AsioScheduler.St.set, AsioScheduler.St.release] using h0
        case body k f => cases h1
      · cases h1
    | ret t' =>
      simp only [AsioScheduler.step] at h1
      split at h1
      · cases h1; exact h0
      · rename_i k f rest hk ht
        cases h1
        simp only [AsioScheduler.St.note, AsioScheduler.St.set, AsioScheduler.St.release, List.mem_append, List.mem_singleton, not_or]
        refine ⟨⟨h0.1, ?_⟩, h0.2, nofun⟩
        intro he
        cases he
        exact hk rfl
      · cases h1
    | throw t' =>
      simp only [AsioScheduler.step] at h1
      split at h1
      · cases h1; simpa [AsioScheduler.St.note, AsioScheduler.St.set, AsioScheduler.St.release] using h0
      · cases h1

/-- A stopped context remains stopped, and nothing is taken from its queue any more. -/
theorem stays_stopped {s s' : AsioScheduler.St α} {m : Move α} (hs : s.stopped = true) (h : AsioScheduler.step callable s m = some s') : s'.stopped = true ∧ s'.taken = s.taken := by
  cases m with
  | begin => cases h; exact ⟨hs, rfl⟩
  | complete f =>
    simp only [AsioScheduler.step] at h
    split at h <;> cases h
    exact ⟨hs, rfl⟩
  | call t c =>
    simp only [AsioScheduler.step] at h
    split at h <;> cases h <;> cases c <;> exact ⟨hs, rfl⟩
  | go t =>
    simp only [AsioScheduler.step] at h
    split at h
    · rename_i fr rest ht
      cases fr <;> simp only [AsioScheduler.go] at h
      case stopReset => cases h; unfold AsioScheduler.St.reset; split <;> simp [AsioScheduler.St.set, AsioScheduler.St.release, hs]
      case stopContext => cases h; exact ⟨rfl, rfl⟩
      case post f => cases h; exact ⟨hs, rfl⟩
      case stopped => cases h; exact ⟨hs, rfl⟩
      case check k => split at h <;> cases h <;> first | exact ⟨rfl, rfl⟩ | exact ⟨hs, rfl⟩
      case next k =>
        rw [if_pos hs] at h
        cases h; exact ⟨hs, rfl⟩
      case start k f =>
        split at h <;> cases h <;> simp [AsioScheduler.St.note, AsioScheduler.St.set, AsioScheduler.St.release, hs]
      case body k f => cases h
    · cases h
  | ret t =>
    simp only [AsioScheduler.step] at h
    split at h <;> cases h <;> simp [AsioScheduler.St.note, AsioScheduler.St.set, AsioScheduler.St.release, hs]
  | throw t =>
    simp only [AsioScheduler.step] at h
    split at h <;> cases h <;> simp [AsioScheduler.St.note, AsioScheduler.St.set, AsioScheduler.St.release, hs]

theorem stays_stopped_steps {s s' : AsioScheduler.St α} {ms : List (Move α)} (hs : s.stopped = true) (h : AsioScheduler.steps callable s ms = some s') : s'.stopped = true ∧ s'.taken = s.taken := by
  induction ms generalizing s with
  | nil => cases h; exact ⟨hs, rfl⟩
  | cons m ms ih =>
    simp only [AsioScheduler.steps, Option.bind_eq_some_iff] at h
    obtain ⟨s1, h1, h2⟩ := h
    obtain ⟨a, b⟩ := stays_stopped hs h1
    obtain ⟨c, d⟩ := ih a h2
    exact ⟨c, d.trans b⟩

theorem asio_begins_grow {l l' : List (Obs α)} (h : ∃ x, l' = l ++ x) : ∃ late, begins l' = begins l ++ late := by
  obtain ⟨x, rfl⟩ := h
  exact ⟨begins x, by simp [begins]⟩

/-- Once the context is stopped, the only functions started are those already taken. -/
theorem stopped_late {s s' : AsioScheduler.St α} {ms : List (Move α)} (I : AsioScheduler.Inv callable s) (hs : s.stopped = true) (h : AsioScheduler.steps callable s ms = some s') :
    ∃ late, begins s'.log = begins s.log ++ late ∧ (late ++ hands callable s').Perm (hands callable s) := by
  have I' := inv_steps I h
  obtain ⟨late, hl⟩ := asio_begins_grow (asio_log_steps h)
  refine ⟨late, hl, ?_⟩
  have p1 := I.once
  have p2 := I'.once
  rw [(stays_stopped_steps hs h).2, hl, List.append_assoc] at p2
  exact (List.perm_append_left_iff _).1 (p2.trans p1.symm)

end

/-- **C87** Refuted for a scheduler on the user's context: with nothing to do, `Run` returns at once, although nobody has called `Stop`. A function posted afterwards is never started, whatever is done then:
    the context is stopped. -/
theorem C87_user_context_refuted : ∃ (ms : List (Move Nat)) (s : AsioScheduler.St Nat), AsioScheduler.steps (fun _ => true) (.init false true 1) ms = some s ∧
    s.log = [.returned 0 .run, .queued 7] ∧ s.threads = [[]] ∧ ∀ (ms' : List (Move Nat)) (s' : AsioScheduler.St Nat), AsioScheduler.steps (fun _ => true) s ms' = some s' → begins s'.log = [] := by
  refine ⟨[.call 0 (.exec .run), .go 0] ++ asioPost 0 7, _, rfl, rfl, rfl, ?_⟩
  intro ms' s' h
  obtain ⟨late, h1, h2⟩ := stopped_late (s := ⟨[7], 1, true, 0, false, true, [[]], [], [.returned 0 .run, .queued 7]⟩)
    (inv_steps (inv_init _ false true 1) (ms := [.call 0 (.exec .run), .go 0] ++ asioPost 0 7) rfl) rfl h
  have := h2.eq_nil
  simp only [List.append_eq_nil_iff] at this
  rw [h1, this.1]
  rfl

/-- A scheduler with its own context runs two functions and waits for more, then `Stop` is called. -/
example : ∃ s s' : AsioScheduler.St Nat, AsioScheduler.steps (fun _ => true) (.init true true 2) ([.call 0 (.exec .run), .go 0] ++ asioPost 1 7 ++ [.go 0, .go 0, .ret 0]) = some s ∧
    AsioScheduler.step (fun _ => true) s (.go 0) = none ∧ s.log = [.queued 7, .began 0 7] ∧
    AsioScheduler.steps (fun _ => true) s [.call 1 .stop, .go 1, .go 1, .go 0] = some s' ∧ s'.log = s.log ++ [.stopCalled 1, .stopReturned 1, .returned 0 .run] :=
  ⟨_, _, rfl, rfl, rfl, rfl, rfl⟩

/-! ### C88 -/

section
variable {α : Type} {callable : α → Bool}

theorem stop_stops {s : AsioScheduler.St α} {ms : List (Move α)} {s0 : AsioScheduler.St α} (h0 : ∀ t, .stopReturned t ∈ s0.log → s0.stopped = true)
    (h : AsioScheduler.steps callable s0 ms = some s) (t : Nat) (hr : .stopReturned t ∈ s.log) : s.stopped = true := by
  induction ms generalizing s0 with
  | nil => cases h; exact h0 t hr
  | cons m ms ih =>
    simp only [AsioScheduler.steps, Option.bind_eq_some_iff] at h
    obtain ⟨s1, h1, h2⟩ := h
    refine ih ?_ h2
    intro t' hr'
    by_cases hs : s0.stopped = true
    · exact (stays_stopped hs h1).1
    · -- it was this step
      have hn : .stopReturned t' ∉ s0.log := fun hh => hs (h0 t' hh)
      cases m with
      | begin => cases h1; exact absurd hr' hn
      | complete f =>
        simp only [AsioScheduler.step] at h1
        split at h1 <;> cases h1
        simp [AsioScheduler.St.note, hn] at hr'
      | call t'' c =>
        simp only [AsioScheduler.step] at h1
        split at h1 <;> cases h1 <;> cases c <;> simp [AsioScheduler.St.called, AsioScheduler.St.note, AsioScheduler.St.set, hn] at hr'
      | go t'' =>
        simp only [AsioScheduler.step] at h1
        split at h1
        · rename_i fr rest ht
          cases fr <;> simp only [AsioScheduler.go] at h1
          case stopReset => cases h1; unfold AsioScheduler.St.reset at hr'; split at hr' <;> simp [AsioScheduler.St.set, AsioScheduler.St.release, hn] at hr'
          case stopContext => cases h1; rfl
          case post f => cases h1; simp [AsioScheduler.St.note, AsioScheduler.St.set, hn] at hr'
          case stopped => cases h1; simp [AsioScheduler.St.note, AsioScheduler.St.set, hn] at hr'
          case check k => split at h1 <;> cases h1 <;> simp [AsioScheduler.St.note, AsioScheduler.St.set, hn] at hr'
          case next k =>
            split at h1
            · cases h1; simp [AsioScheduler.St.note, AsioScheduler.St.set, hn] at hr'
            · split at h1
              · split at h1
                · cases h1; simp [AsioScheduler.St.note, AsioScheduler.St.set, hn] at hr'
                · cases h1
              · cases h1; simp [AsioScheduler.St.note, AsioScheduler.St.set, hn] at hr'
          case start k f => split at h1 <;> cases h1 <;> simp [AsioScheduler.St.note, AsioScheduler.St.set, AsioScheduler.St.release, hn] at hr'
          case body k f => cases h1
        · cases h1
      | ret t'' =>
        simp only [AsioScheduler.step] at h1
        split at h1 <;> cases h1 <;> simp [AsioScheduler.St.note, AsioScheduler.St.set, AsioScheduler.St.release, hn] at hr'
      | throw t'' =>
        simp only [AsioScheduler.step] at h1
        split at h1 <;> cases h1 <;> simp [AsioScheduler.St.note, AsioScheduler.St.set, AsioScheduler.St.release, hn] at hr'

/-- **C88** (part) After `Stop` has returned (to anyone), the only functions still started are those that some thread had already taken from the queue. Missing: these. -/
theorem C88_stop_partial (owned resets : Bool) (n : Nat) (ms ms' : List (Move α)) (s s' : AsioScheduler.St α) (h : AsioScheduler.steps callable (.init owned resets n) ms = some s)
    (t : Nat) (hr : .stopReturned t ∈ s.log) (h' : AsioScheduler.steps callable s ms' = some s') :
    ∃ late, begins s'.log = begins s.log ++ late ∧ (late ++ hands callable s').Perm (hands callable s) :=
  stopped_late (inv_steps (inv_init callable owned resets n) h) (stop_stops (fun t ht => by cases ht) h t hr) h'

/-- **C88** Once `Stop` has returned, `Stopped()` returns true, for ever. -/
theorem C88_stopped_true (owned resets : Bool) (n : Nat) (ms ms' : List (Move α)) (s s' : AsioScheduler.St α) (h : AsioScheduler.steps callable (.init owned resets n) ms = some s)
    (t : Nat) (hr : .stopReturned t ∈ s.log) (h' : AsioScheduler.steps callable s ms' = some s') (t' : Nat) : ∃ l, s'.log = s.log ++ l ∧ .stoppedReturned t' false ∉ l := by
  have hs := stop_stops (fun t ht => by cases ht) h t hr
  clear h hr
  induction ms' generalizing s with
  | nil => cases h'; exact ⟨[], by simp, nofun⟩
  | cons m ms' ih =>
    simp only [AsioScheduler.steps, Option.bind_eq_some_iff] at h'
    obtain ⟨s1, h1, h2⟩ := h'
    obtain ⟨l, hl, hn⟩ := ih s1 h2 (stays_stopped hs h1).1
    suffices H : ∃ l1, s1.log = s.log ++ l1 ∧ .stoppedReturned t' false ∉ l1 by
      obtain ⟨l1, e1, n1⟩ := H
      exact ⟨l1 ++ l, by rw [hl, e1, List.append_assoc], by simp [n1, hn]⟩
    cases m with
    | begin => cases h1; exact ⟨[], by simp, nofun⟩
    | complete f =>
      simp only [AsioScheduler.step] at h1
      split at h1 <;> cases h1
      exact ⟨_, rfl, by simp⟩
    | call t'' c =>
      simp only [AsioScheduler.step] at h1
      split at h1 <;> cases h1 <;> cases c <;> first | exact ⟨_, rfl, by simp⟩ | exact ⟨[], by simp [AsioScheduler.St.called, AsioScheduler.St.set], nofun⟩
    | go t'' =>
      simp only [AsioScheduler.step] at h1
      split at h1
      · rename_i fr rest ht
        cases fr <;> simp only [AsioScheduler.go] at h1
        case stopReset => cases h1; refine ⟨[], ?_, nofun⟩; unfold AsioScheduler.St.reset; split <;> simp [AsioScheduler.St.set, AsioScheduler.St.release]
        case stopContext => cases h1; exact ⟨_, rfl, by simp⟩
        case post f => cases h1; exact ⟨_, rfl, by simp⟩
        case stopped => cases h1; rw [hs]; exact ⟨_, rfl, by simp⟩
        case check k =>
          split at h1 <;> cases h1
          · exact ⟨_, rfl, by simp⟩
          · exact ⟨[], by simp [AsioScheduler.St.set], nofun⟩
        case next k =>
          rw [if_pos hs] at h1
          cases h1; exact ⟨_, rfl, by simp⟩
        case start k f => split at h1 <;> cases h1 <;> exact ⟨_, rfl, by simp⟩
        case body k f => cases h1
      · cases h1
    | ret t'' =>
      simp only [AsioScheduler.step] at h1
      split at h1
      · cases h1; exact ⟨[], by simp [AsioScheduler.St.set, AsioScheduler.St.release], nofun⟩
      · cases h1; exact ⟨_, rfl, by simp⟩
      · cases h1
    | throw t'' =>
      simp only [AsioScheduler.step] at h1
      split at h1
      · cases h1; exact ⟨_, rfl, by simp⟩
      · cases h1

/-- **C88** Once `Stop` has returned, a thread in `Run`, `ExecOne` or `PollOne` (waiting or not) that runs no function can return, after at most two steps; it starts nothing. -/
theorem C88_returns (owned resets : Bool) (n : Nat) (ms : List (Move α)) (s : AsioScheduler.St α) (h : AsioScheduler.steps callable (.init owned resets n) ms = some s)
    (t' : Nat) (hr : .stopReturned t' ∈ s.log) (t : Nat) (k : Kind) (rest : List (AsioScheduler.Frame α)) (ht : s.threads[t]? = some (.check k :: rest) ∨ s.threads[t]? = some (.next k :: rest)) :
    ∃ j s', j ≤ 2 ∧ AsioScheduler.steps callable s (List.replicate j (.go t)) = some s' ∧ s'.log = s.log ++ [.returned t k] ∧ s'.threads = s.threads.set t rest := by
  have hs := stop_stops (fun t ht => by cases ht) h t' hr
  rcases ht with ht | ht
  · by_cases hw : s.work = 0
    · refine ⟨1, (({ s with stopped := true } : AsioScheduler.St α).note (.returned t k)).set t rest, by omega, ?_, rfl, rfl⟩
      · simp only [List.replicate, AsioScheduler.steps, AsioScheduler.step, ht, AsioScheduler.go, if_pos hw, Option.bind]
    · refine ⟨2, (s.note (.returned t k)).set t rest, by omega, ?_, rfl, rfl⟩
      · simp only [List.replicate, AsioScheduler.steps, AsioScheduler.step, ht, AsioScheduler.go, if_neg hw, Option.bind]
        have : (s.set t (.next k :: rest)).threads[t]? = some (.next k :: rest) := get_set _ ht
        rw [this]
        have hs' : (s.set t (.next k :: rest)).stopped = true := hs
        simp only [hs', if_true]
        simp [AsioScheduler.St.set, AsioScheduler.St.note]
  · refine ⟨1, (s.note (.returned t k)).set t rest, by omega, ?_, rfl, rfl⟩
    simp only [List.replicate, AsioScheduler.steps, AsioScheduler.step, ht, AsioScheduler.go, if_pos hs, Option.bind]

end

/-- **C88** Refuted: a thread takes a function from the queue; another calls `Stop`, which returns; then the function is started. -/
theorem C88_started_after_stop_refuted : ∃ (ms : List (Move Nat)) (s : AsioScheduler.St Nat), AsioScheduler.steps (fun _ => true) (.init true true 2) ms = some s ∧
    s.log = [.queued 7, .stopCalled 1, .stopReturned 1, .began 0 7] :=
  ⟨asioPost 1 7 ++ [.call 0 (.exec .run), .go 0, .go 0, .call 1 .stop, .go 1, .go 1, .go 0], _, rfl, rfl⟩

/-- A task calls `Stop`: the function posted after it is not started, `Run` returns. -/
example : ∃ s : AsioScheduler.St Nat, AsioScheduler.steps (fun _ => true) (.init true false 1)
    (asioPost 0 7 ++ asioPost 0 8 ++ [.call 0 (.exec .run), .go 0, .go 0, .go 0, .call 0 .stop, .go 0, .go 0, .call 0 .stopped, .go 0, .ret 0, .go 0]) = some s ∧
    s.log = [.queued 7, .queued 8, .began 0 7, .stopCalled 0, .stopReturned 0, .stoppedReturned 0 true, .returned 0 .run] ∧ s.queue = [8] ∧ s.threads = [[]] := ⟨_, rfl, rfl, rfl, rfl⟩

/-! ### C89 -/

section
variable {α : Type} {callable : α → Bool}

/-- **C89** As long as `Stop` has not been called on a scheduler that owns its context: whichever thread calls `Run`, `ExecOne` or `PollOne`, from outside or from a task, if no other thread interferes, it starts
    the function that was posted first among those waiting. -/
theorem C89_progress (resets : Bool) (n : Nat) (ms : List (Move α)) (s : AsioScheduler.St α) (h : AsioScheduler.steps callable (.init true resets n) ms = some s) (hu : Unstopped s.log)
    (t : Nat) (fs : List (AsioScheduler.Frame α)) (ht : s.threads[t]? = some fs) (hfs : fs = [] ∨ ∃ k f rest, fs = .body k f :: rest) (f : α) (q : List α) (hq : s.queue = f :: q) (hf : callable f = true) (k : Kind) :
    ∃ s', AsioScheduler.steps callable s [.call t (.exec k), .go t, .go t, .go t] = some s' ∧ s'.log = s.log ++ [.began t f] ∧ s'.queue = q ∧ s'.threads = s.threads.set t (.body k f :: fs) := by
  have I := inv_steps (inv_init callable true resets n) h
  have L := live_steps (inv_init callable true resets n) (live_init resets n) h hu
  have hw : s.work ≠ 0 := by have := I.count; rw [L.guard] at this; simp at this; omega
  have h1 : AsioScheduler.step callable s (.call t (.exec k)) = some (s.set t (.check k :: fs)) := by
    rcases hfs with rfl | ⟨k', f', rest, rfl⟩ <;> simp only [AsioScheduler.step, ht] <;> rfl
  refine ⟨(({ s with queue := q, taken := s.taken ++ [f] } : AsioScheduler.St α).note (.began t f)).set t (.body k f :: fs), ?_, rfl, rfl, rfl⟩
  simp only [AsioScheduler.steps, h1, Option.bind]
  have g1 : (s.set t (.check k :: fs)).threads[t]? = some (.check k :: fs) := get_set _ ht
  have e1 : AsioScheduler.step callable (s.set t (.check k :: fs)) (.go t) = some (s.set t (.next k :: fs)) := by
    simp only [AsioScheduler.step, g1, AsioScheduler.go]
    rw [if_neg (show ¬ (s.set t (.check k :: fs)).work = 0 from hw)]
    simp [AsioScheduler.St.set]
  have g2 : (s.set t (.next k :: fs)).threads[t]? = some (.next k :: fs) := get_set _ ht
  have e2 : AsioScheduler.step callable (s.set t (.next k :: fs)) (.go t) = some (({ s with queue := q, taken := s.taken ++ [f] } : AsioScheduler.St α).set t (.start k f :: fs)) := by
    simp only [AsioScheduler.step, g2, AsioScheduler.go]
    have hs' : (s.set t (.next k :: fs)).stopped = false := L.stopped
    have hq' : (s.set t (.next k :: fs)).queue = f :: q := hq
    simp only [hs', hq']
    simp [AsioScheduler.St.set, L.stopped]
  have g3 : (({ s with queue := q, taken := s.taken ++ [f] } : AsioScheduler.St α).set t (.start k f :: fs)).threads[t]? = some (.start k f :: fs) := get_set _ ht
  have e3 : AsioScheduler.step callable (({ s with queue := q, taken := s.taken ++ [f] } : AsioScheduler.St α).set t (.start k f :: fs)) (.go t) =
      some ((({ s with queue := q, taken := s.taken ++ [f] } : AsioScheduler.St α).note (.began t f)).set t (.body k f :: fs)) := by
    simp only [AsioScheduler.step, g3, AsioScheduler.go, hf, if_true]
    simp [AsioScheduler.St.set, AsioScheduler.St.note]
  simp only [e1, e2, e3]

end

/-- **C89** Refuted for a scheduler on the user's context: an application that calls `PollOne` now and then, once when there is nothing to do; a function posted afterwards is never started, neither by `PollOne`
    nor otherwise. -/
theorem C89_user_context_refuted : ∃ (ms : List (Move Nat)) (s : AsioScheduler.St Nat), AsioScheduler.steps (fun _ => true) (.init false true 1) ms = some s ∧
    s.log = [.returned 0 .poll, .queued 7, .returned 0 .poll] ∧ s.queue = [7] ∧ s.threads = [[]] ∧
    ∀ (ms' : List (Move Nat)) (s' : AsioScheduler.St Nat), AsioScheduler.steps (fun _ => true) s ms' = some s' → begins s'.log = [] := by
  refine ⟨[.call 0 (.exec .poll), .go 0] ++ asioPost 0 7 ++ [.call 0 (.exec .poll), .go 0, .go 0], _, rfl, rfl, rfl, rfl, ?_⟩
  intro ms' s' h
  obtain ⟨late, h1, h2⟩ := stopped_late (s := ⟨[7], 1, true, 0, false, true, [[]], [], [.returned 0 .poll, .queued 7, .returned 0 .poll]⟩)
    (inv_steps (inv_init _ false true 1) (ms := [.call 0 (.exec .poll), .go 0] ++ asioPost 0 7 ++ [.call 0 (.exec .poll), .go 0, .go 0]) rfl) rfl h
  have := h2.eq_nil
  simp only [List.append_eq_nil_iff] at this
  rw [h1, this.1]
  rfl

/-- A function is posted, nobody has called `Stop`, a task of another function calls `PollOne`. -/
example : ∃ s : AsioScheduler.St Nat, AsioScheduler.steps (fun _ => true) (.init true true 1) (asioPost 0 7 ++ asioPost 0 8 ++ [.call 0 (.exec .one), .go 0, .go 0, .go 0]) = some s ∧
    s.log = [.queued 7, .queued 8, .began 0 7] ∧ s.queue = [8] ∧ s.threads = [[.body .one 7]] := ⟨_, rfl, rfl, rfl, rfl⟩

end Verif.Props
