import Verif.Props.Loop

/-!
# C114: `LoopScheduler` keeps the promise of `Scheduler` about `Post`

scheduler.h:38-43 promises that a task submitted with `Post` executes "as soon as possible (but in any case after the call to `Post` is terminated)". `LoopScheduler::Post` (loopscheduler.h:77-82) keeps the mutex till
its end, and nobody takes a task without the mutex.
-/

set_option linter.unusedSimpArgs false

namespace Verif.Props
open Verif.Loop

section
variable {α : Type} {callable : α → Bool}

theorem finish_keeps_queue (s : St α) (t : Nat) (b : Bool) (rest : List (Frame α)) :
    (finish s t b rest).tasks = s.tasks ∧ posts (finish s t b rest).log = posts s.log ∧ (finish s t b rest).owner = s.owner ∧
    ∀ t', t ≠ t' → (finish s t b rest).threads[t']? = s.threads[t']? := by
  unfold finish
  split
  · split <;> refine ⟨rfl, by simp [St.note, St.set, posts], rfl, ?_⟩ <;> (intro t' ht; simp [St.set, St.note, List.getElem?_set_ne ht])
  · exact ⟨rfl, by simp [St.note, St.set, posts], rfl, fun t' ht => by simp [St.set, St.note, List.getElem?_set_ne ht]⟩

/-- While thread `t` has the mutex, no other changes the queue, posts anything, or moves it. -/
theorem mutex_other_step {s s' : St α} (I : Inv callable s) {t t' : Nat} (ho : s.owner = some t) (hne : t' ≠ t) {m : Move α} (h : step callable s t' m = some s') :
    s'.tasks = s.tasks ∧ posts s'.log = posts s.log ∧ s'.threads[t]? = s.threads[t]? ∧ s'.owner = some t := by
  unfold step at h
  cases ht : s.threads[t']? with
  | none => rw [ht] at h; exact absurd h (by simp)
  | some fs =>
    rw [ht] at h
    simp only at h
    have hc : csTop fs = false := by
      rcases hx : csTop fs with _ | _
      · rfl
      · have := (I.cs t' fs ht).1 hx
        rw [ho] at this
        exact absurd (Option.some.inj this).symm hne
    split at h
    · cases h; exact ⟨rfl, rfl, by simp [St.set, List.getElem?_set_ne hne], ho⟩
    · cases h; exact ⟨rfl, rfl, by simp [St.set, List.getElem?_set_ne hne], ho⟩
    · rename_i fr rest
      have hc' : cs fr = false := hc
      cases fr <;> simp [cs] at hc' <;> simp only [go, ho] at h
      case lock => simp at h
      case asleep => cases h
      case woken => simp at h
      case start f =>
        split at h
        · cases h
          exact ⟨rfl, by simp [St.note, St.set, posts], by simp [St.set, St.note, List.getElem?_set_ne hne], ho⟩
        · cases h
          obtain ⟨a, b, c, d⟩ := finish_keeps_queue s t' true rest
          exact ⟨a, b, d t hne, by rw [c, ho]⟩
      case body => cases h
      case run => cases h
    · cases h; exact ⟨rfl, rfl, by simp [St.set, List.getElem?_set_ne hne], ho⟩
    · rename_i f rest
      cases h
      obtain ⟨a, b, c, d⟩ := finish_keeps_queue s t' true rest
      exact ⟨a, b, d t hne, by rw [c, ho]⟩
    · cases h; exact ⟨rfl, rfl, by simp [St.set, List.getElem?_set_ne hne], ho⟩
    · cases h

/-- The steps that thread `t` takes in a sequence. -/
def ownMoves (t : Nat) (ms : List (Nat × Move α)) : List (Nat × Move α) := ms.filter (fun m => m.1 == t)

theorem ownMoves_other {t t' : Nat} (hne : t' ≠ t) (m : Move α) (ms : List (Nat × Move α)) : ownMoves t ((t', m) :: ms) = ownMoves t ms := by
  unfold ownMoves
  rw [List.filter_cons_of_neg (by simp [hne])]

theorem ownMoves_self (t : Nat) (m : Move α) (ms : List (Nat × Move α)) : ownMoves t ((t, m) :: ms) = (t, m) :: ownMoves t ms := by
  unfold ownMoves
  rw [List.filter_cons_of_pos (by simp)]

/-- `Post` about to unlock the mutex, and its thread does nothing. -/
theorem unlock_waits {s s' : St α} (I : Inv callable s) {t : Nat} {rest : List (Frame α)} (ht : s.threads[t]? = some (.postUnlock :: rest)) {ms : List (Nat × Move α)} (hk : ownMoves t ms = [])
    (h : steps callable s ms = some s') : s'.tasks = s.tasks ∧ posts s'.log = posts s.log := by
  induction ms generalizing s with
  | nil => cases h; exact ⟨rfl, rfl⟩
  | cons m ms ih =>
    obtain ⟨t', m⟩ := m
    have hne : t' ≠ t := by
      intro he
      rw [he, ownMoves_self] at hk
      exact absurd hk (by simp)
    rw [ownMoves_other hne] at hk
    simp only [steps] at h
    cases h1 : step callable s t' m with
    | none => rw [h1] at h; cases h
    | some s1 =>
      rw [h1] at h
      have ho := (I.cs t _ ht).1 rfl
      obtain ⟨a, b, c, d⟩ := mutex_other_step I ho hne h1
      have := ih (inv_step I h1) (c.trans ht) hk h
      exact ⟨this.1.trans a, this.2.trans b⟩

/-- `Post` about to notify, and its thread takes at most one step. -/
theorem notify_waits {s s' : St α} (I : Inv callable s) {t : Nat} {rest : List (Frame α)} (ht : s.threads[t]? = some (.postNotify :: rest)) {ms : List (Nat × Move α)} (hk : (ownMoves t ms).length ≤ 1)
    (h : steps callable s ms = some s') : s'.tasks = s.tasks ∧ posts s'.log = posts s.log := by
  induction ms generalizing s with
  | nil => cases h; exact ⟨rfl, rfl⟩
  | cons m ms ih =>
    obtain ⟨t', m⟩ := m
    simp only [steps] at h
    cases h1 : step callable s t' m with
    | none => rw [h1] at h; cases h
    | some s1 =>
      rw [h1] at h
      by_cases hne : t' = t
      · subst hne
        rw [ownMoves_self] at hk
        have hk' : ownMoves t' ms = [] := by
          rcases hx : ownMoves t' ms with _ | ⟨a, l⟩
          · rfl
          · rw [hx] at hk; simp at hk
        have I1 := inv_step I h1
        unfold step at h1
        rw [ht] at h1
        simp only at h1
        split at h1
        · rename_i heq; cases heq
        · rename_i heq; cases heq
        · rename_i fr rest' heq
          cases heq
          simp only [go, Option.some.injEq] at h1
          have hl : t' < s.threads.length := (List.getElem?_eq_some_iff.1 ht).1
          have h2 : s1.threads[t']? = some (.postUnlock :: rest) := by rw [← h1]; simp [St.set, hl]
          have r := unlock_waits I1 h2 hk' h
          have e1 : s1.tasks = s.tasks := by rw [← h1]; rfl
          have e2 : posts s1.log = posts s.log := by rw [← h1]; rfl
          exact ⟨r.1.trans e1, r.2.trans e2⟩
        · rename_i heq; cases heq
        · rename_i heq; cases heq
        · rename_i heq; cases heq
        · cases h1
      · rw [ownMoves_other hne] at hk
        have ho := (I.cs t _ ht).1 rfl
        obtain ⟨a, b, c, d⟩ := mutex_other_step I ho hne h1
        have := ih (inv_step I h1) (c.trans ht) hk h
        exact ⟨this.1.trans a, this.2.trans b⟩

/-- **C114** A task is not started, and not even taken from the queue, before the call to `Post` that submitted it has ended. Thread `t` is in `Post(f)` and puts `f` into the queue; `Post` then takes two more steps, it
notifies and it unlocks the mutex and returns. Whatever all threads do, as long as thread `t` has not taken these two steps, `f` is the last in the queue and nobody has posted anything else; all tasks that have been
started or taken come from the calls before. -/
theorem C114_after (n : Nat) (ms ms' : List (Nat × Move α)) (s s1 s' : St α) (h : steps callable (St.init n) ms = some s) (t : Nat) (f : α) (rest : List (Frame α))
    (ht : s.threads[t]? = some (.postPush f :: rest)) (h1 : step callable s t .go = some s1) (h' : steps callable s1 ms' = some s') (hk : (ms'.filter (fun m => m.1 == t)).length ≤ 1) :
    s'.tasks = s.tasks ++ [f] ∧ posts s'.log = posts s.log ++ [f] ∧
    (begins s'.log ++ hands callable s' ++ s.tasks.filter callable).Perm ((posts s.log).filter callable) := by
  have I := loop_inv h
  have I1 := inv_step I h1
  have I2 := inv_steps I1 h'
  unfold step at h1
  rw [ht] at h1
  simp only [go, Option.some.injEq] at h1
  have hl : t < s.threads.length := (List.getElem?_eq_some_iff.1 ht).1
  have h3 : s1.threads[t]? = some (.postNotify :: rest) := by rw [← h1]; simp [St.set, St.note, St.touch, hl]
  obtain ⟨a, b⟩ := notify_waits I1 h3 hk h'
  have a' : s'.tasks = s.tasks ++ [f] := by rw [a, ← h1]; simp [St.set, St.note, St.touch]
  have b' : posts s'.log = posts s.log ++ [f] := by rw [b, ← h1]; simp [St.set, St.note, St.touch, posts]
  refine ⟨a', b', ?_⟩
  have o : (begins s'.log ++ hands callable s' ++ s'.tasks.filter callable).Perm ((posts s'.log).filter callable) := by
    rw [I2.queue, List.filter_append]
    exact I2.once.append_right _
  rw [a', b', List.filter_append, List.filter_append, ← List.append_assoc] at o
  exact (List.perm_append_right_iff _).1 o

/-- Thread `e` calls `PollOne`, takes the task, starts it if it is not empty, and the task returns. -/
def pollFor (callable : α → Bool) (e : Nat) (f : α) : List (Nat × Move α) :=
  [(e, .call .poll), (e, .go), (e, .go), (e, .go), (e, .go)] ++ if callable f then [(e, .ret)] else []

theorem pollFor_one {s : St α} {e : Nat} (he : s.threads[e]? = some []) (hr : s.running = true) (ho : s.owner = none) {f : α} {fs : List α} (hq : s.tasks = f :: fs) :
    ∃ s', steps callable s (pollFor callable e f) = some s' ∧ s'.tasks = fs ∧ s'.running = true ∧ s'.owner = none ∧ s'.threads[e]? = some [] ∧
      begins s'.log = begins s.log ++ [f].filter callable := by
  have hl : e < s.threads.length := (List.getElem?_eq_some_iff.1 he).1
  have e1 : step callable s e (.call .poll) = some (s.set e [.lock .poll]) := by simp [step, he, enter]
  have e2 : step callable (s.set e [.lock .poll]) e .go = some ({ s.touch with owner := some e }.set e [.pollTake]) := by
    simp [step, go, St.set, hl, ho, locked, St.touch]
  have e3 : step callable ({ s.touch with owner := some e }.set e [.pollTake]) e .go =
      some ({ s.touch with owner := some e, tasks := fs, taken := s.taken ++ [f] }.set e [.unlockTask f]) := by
    simp [step, go, St.set, hl, hq, hr, St.touch]
  have e4 : step callable ({ s.touch with owner := some e, tasks := fs, taken := s.taken ++ [f] }.set e [.unlockTask f]) e .go =
      some ({ s.touch with owner := none, tasks := fs, taken := s.taken ++ [f] }.set e [.start f]) := by
    simp [step, go, St.set, hl, St.touch]
  rcases hc : callable f with _ | _
  · have e5 : step callable ({ s.touch with owner := none, tasks := fs, taken := s.taken ++ [f] }.set e [.start f]) e .go =
        some (({ s.touch with owner := none, tasks := fs, taken := s.taken ++ [f] }.note (.result e true)).set e []) := by
      simp [step, go, St.set, hl, St.touch, hc, finish, St.note]
    refine ⟨({ s.touch with owner := none, tasks := fs, taken := s.taken ++ [f] }.note (.result e true)).set e [], ?_, ?_⟩
    · simp only [pollFor, hc, steps, List.cons_append, List.nil_append, Bool.false_eq_true, if_false, e1, e2, e3, e4, e5, Option.bind_some]
    · simp [begins, St.set, St.note, hl, hc, hr, St.touch]
  · have e5 : step callable ({ s.touch with owner := none, tasks := fs, taken := s.taken ++ [f] }.set e [.start f]) e .go =
        some (({ s.touch with owner := none, tasks := fs, taken := s.taken ++ [f] }.note (.began e f)).set e [.body f]) := by
      simp [step, go, St.set, hl, St.touch, hc, finish, St.note]
    have e6 : step callable (({ s.touch with owner := none, tasks := fs, taken := s.taken ++ [f] }.note (.began e f)).set e [.body f]) e .ret =
        some ((({ s.touch with owner := none, tasks := fs, taken := s.taken ++ [f] }.note (.began e f)).note (.result e true)).set e []) := by
      simp [step, go, St.set, hl, St.touch, hc, finish, St.note]
    refine ⟨(({ s.touch with owner := none, tasks := fs, taken := s.taken ++ [f] }.note (.began e f)).note (.result e true)).set e [], ?_, ?_⟩
    · simp only [pollFor, hc, steps, List.cons_append, List.nil_append, if_true, e1, e2, e3, e4, e5, e6, Option.bind_some]
    · simp [begins, St.set, St.note, hl, hc, hr, St.touch]

/-- **C114** (part) Tasks that have been posted get executed: if the scheduler has not been stopped and the mutex is free, a thread that calls `PollOne` as often as there are tasks in the queue, without others, executes them
all, in the order of posting, and each returns. Missing: a scheduler that is stopped drops what it has in its queue (`C114_stopped_refuted`), and one whose owner calls neither `Run`, `ExecOne` nor `PollOne` executes nothing. -/
theorem C114_executed_partial (s : St α) (e : Nat) (he : s.threads[e]? = some []) (hr : s.running = true) (ho : s.owner = none) :
    ∃ s', steps callable s (s.tasks.flatMap (pollFor callable e)) = some s' ∧ s'.tasks = [] ∧ begins s'.log = begins s.log ++ s.tasks.filter callable ∧ s'.threads[e]? = some [] := by
  suffices ∀ (q : List α) (s : St α), s.tasks = q → s.threads[e]? = some [] → s.running = true → s.owner = none →
      ∃ s', steps callable s (q.flatMap (pollFor callable e)) = some s' ∧ s'.tasks = [] ∧ begins s'.log = begins s.log ++ q.filter callable ∧ s'.threads[e]? = some [] from
    this s.tasks s rfl he hr ho
  intro q
  induction q with
  | nil => intro s hq he _ _; exact ⟨s, rfl, hq, by simp, he⟩
  | cons f fs ih =>
    intro s hq he hr ho
    obtain ⟨s1, a1, a2, a3, a4, a5, a6⟩ := pollFor_one (callable := callable) he hr ho hq
    obtain ⟨s2, b1, b2, b3, b4⟩ := ih s1 a2 a5 a3 a4
    refine ⟨s2, ?_, b2, ?_, b4⟩
    · rw [List.flatMap_cons, loop_append, a1]
      exact b1
    · rw [b3, a6, List.append_assoc, ← List.filter_append]
      rfl

/-- **C114** Refuted: a task that was posted is dropped if the scheduler is stopped before it is taken. Whoever executes tasks afterwards, it is not started. -/
theorem C114_stopped_refuted : ∃ s : St Nat, steps (fun _ => true) (St.init 1) (postsOne 0 7 ++ stops 0) = some s ∧ posts s.log = [7] ∧
    ∀ ms s', steps (fun _ => true) s ms = some s' → begins s'.log = [] := by
  refine ⟨⟨[7], false, none, [[]], [], [.posted 7, .stopReturned 0], true, false⟩, rfl, rfl, fun ms s' h => ?_⟩
  refine (C53_no_more_partial (callable := fun _ => true) 1 (postsOne 0 7 ++ stops 0) ms _ s' rfl 0 (by simp) ?_ h).trans rfl
  intro t f rest
  match t with
  | 0 => exact ⟨by simp, by simp⟩
  | t + 1 => exact ⟨by simp, by simp⟩

/-- Thread 0 is in `Post(7)` and has put it into the queue; thread 1 calls `PollOne` meanwhile and must wait, then thread 0 notifies and thread 1 must still wait. -/
example : ∃ s s1 s', steps (fun _ => true) (St.init 2 : St Nat) [(0, .call (.post 7)), (0, .go)] = some s ∧ s.threads[0]? = some [.postPush 7] ∧ step (fun _ => true) s 0 .go = some s1 ∧
    steps (fun _ => true) s1 [(1, .call .poll), (0, .go)] = some s' ∧ s'.threads[1]? = some [.lock .poll] ∧ (step (fun _ => true) s' 1 .go).isNone ∧ s'.tasks = [7] ∧ begins s'.log = [] :=
  ⟨_, _, _, rfl, rfl, rfl, rfl, rfl, rfl, rfl, rfl⟩

/-- After that, thread 1 may take and start the task, with the third step of thread 0. -/
example : ∃ s, steps (fun _ => true) (St.init 2 : St Nat) ([(0, .call (.post 7)), (0, .go), (0, .go), (1, .call .poll), (0, .go), (0, .go)] ++ [(1, .go), (1, .go), (1, .go), (1, .go)]) = some s ∧
    begins s.log = [7] := ⟨_, rfl, rfl⟩

/-- Three tasks, one of them an empty function. -/
example : ∃ s s' : St Nat, steps (fun k => k != 2) (St.init 1) (postsOne 0 1 ++ postsOne 0 2 ++ postsOne 0 3) = some s ∧ s.tasks = [1, 2, 3] ∧
    steps (fun k => k != 2) s (s.tasks.flatMap (pollFor (fun k => k != 2) 0)) = some s' ∧ begins s'.log = [1, 3] := ⟨_, _, rfl, rfl, rfl, rfl⟩

end
end Verif.Props
