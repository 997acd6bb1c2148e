import Verif.Proofs.Loop

set_option linter.unusedSimpArgs false

/-!
# Properties C51-C54, C70: the loop scheduler
-/

namespace Verif.Props
open Verif.Loop

section
variable {α : Type} {callable : α → Bool}

theorem loop_inv {n : Nat} {ms : List (Nat × Move α)} {s : St α} (h : steps callable (St.init n) ms = some s) : Inv callable s := inv_steps (inv_init callable n) h

theorem loop_append (s : St α) (ms ms' : List (Nat × Move α)) : steps callable s (ms ++ ms') = (steps callable s ms).bind (fun s => steps callable s ms') := by
  induction ms generalizing s with
  | nil => rfl
  | cons m ms ih =>
    obtain ⟨t, m⟩ := m
    simp only [List.cons_append, steps]
    cases step callable s t m with
    | none => rfl
    | some s1 => exact ih s1

/-! ### C51 -/

/-- **C51** For any number of threads doing anything: the tasks started, those taken from the queue and about to be started, and those in the queue are together exactly the tasks posted, each as often as it
    was posted (empty functions apart). So none is started twice, none is lost, and none is started before it is posted. -/
theorem C51_once (n : Nat) (ms : List (Nat × Move α)) (s : St α) (h : steps callable (St.init n) ms = some s) :
    (begins s.log ++ hands callable s ++ s.tasks.filter callable).Perm ((posts s.log).filter callable) := by
  have I := loop_inv h
  rw [I.queue, List.filter_append]
  exact I.once.append_right _

/-- What one step of thread `t` does to the tasks. -/
theorem step_order {s s' : St α} (I : Inv callable s) {t : Nat} {m : Move α} {fs : List (Frame α)} (ht : s.threads[t]? = some fs) (h : step callable s t m = some s') :
    ∃ fs' extra g, s'.threads = (s.threads.map g).set t fs' ∧ Neutral callable g ∧ (g = id ∨ g = notify) ∧ s'.taken.filter callable = s.taken.filter callable ++ extra ∧
      begins s'.log ++ hand callable fs' = begins s.log ++ hand callable fs ++ extra := by
  have hw := I.wf t _ ht
  unfold step at h
  rw [ht] at h
  simp only at h
  have hfin : ∀ (s0 : St α) (b : Bool) (rest : List (Frame α)), wfTail rest = true → s0.threads = s.threads → s0.log = s.log → s0.taken = s.taken → hand callable fs = [] →
      ∃ fs' extra g, (finish s0 t b rest).threads = (s.threads.map g).set t fs' ∧ Neutral callable g ∧ (g = id ∨ g = notify) ∧
        (finish s0 t b rest).taken.filter callable = s.taken.filter callable ++ extra ∧ begins (finish s0 t b rest).log ++ hand callable fs' = begins s.log ++ hand callable fs ++ extra := by
    intro s0 b rest hr h0 h1 h2 hh
    obtain ⟨fs', log', he, _, _, _, _, _, a6, _, a8⟩ := finish_spec callable s0 t b hr
    refine ⟨fs', [], id, by rw [he]; simp [h0], neutral_id _, .inl rfl, by rw [he]; simp [h2], ?_⟩
    rw [he]
    simp only [a6, a8, h1, hh, List.append_nil]
  split at h
  · rename_i c
    cases h
    exact ⟨_, [], id, by simp [St.set]; rfl, neutral_id _, .inl rfl, by simp [St.set], by cases c <;> simp [enter, hand, St.set]⟩
  · rename_i c f rest
    cases h
    exact ⟨_, [], id, by simp [St.set]; rfl, neutral_id _, .inl rfl, by simp [St.set], by cases c <;> simp [enter, hand, St.set]⟩
  · rename_i fr rest
    have hr := wf_rest hw
    have c5 := (tail_calm callable hr).2.2.2.2
    cases fr with
    | lock c =>
      simp only [go] at h
      split at h
      · cases h
        exact ⟨_, [], id, by simp [St.set, St.touch] <;> rfl, neutral_id _, .inl rfl, by simp [St.set, St.touch], by cases c <;> simp [locked, hand, St.set, St.touch]⟩
      · cases h
    | stopSet d => cases h; exact ⟨_, [], id, by simp [St.set, St.touch] <;> rfl, neutral_id _, .inl rfl, by simp [St.set, St.touch], by simp [hand, St.set, St.touch]⟩
    | stopNotify d => cases h; exact ⟨_, [], notify, rfl, neutral_notify _, .inr rfl, by simp [St.set, St.touch], by simp [hand, St.set, St.touch]⟩
    | stopUnlock d => cases h; exact ⟨_, [], id, by simp [St.set, St.touch, St.note] <;> rfl, neutral_id _, .inl rfl, by simp [St.set, St.touch, St.note], by rw [c5]; simp [hand, St.set, St.touch, St.note, begins]⟩
    | stoppedRead => cases h; exact ⟨_, [], id, by simp [St.set, St.touch] <;> rfl, neutral_id _, .inl rfl, by simp [St.set, St.touch], by simp [hand, St.set, St.touch]⟩
    | stoppedUnlock b => cases h; exact ⟨_, [], id, by simp [St.set, St.touch, St.note] <;> rfl, neutral_id _, .inl rfl, by simp [St.set, St.touch, St.note], by rw [c5]; simp [hand, St.set, St.touch, St.note, begins]⟩
    | postPush f => cases h; exact ⟨_, [], id, by simp [St.set, St.touch, St.note] <;> rfl, neutral_id _, .inl rfl, by simp [St.set, St.touch, St.note], by simp [hand, St.set, St.touch, St.note, begins]⟩
    | postNotify => cases h; exact ⟨_, [], notify, rfl, neutral_notify _, .inr rfl, by simp [St.set, St.touch], by simp [hand, St.set, St.touch]⟩
    | postUnlock => cases h; exact ⟨_, [], id, by simp [St.set, St.touch] <;> rfl, neutral_id _, .inl rfl, by simp [St.set, St.touch], by rw [c5]; simp [hand, St.set, St.touch]⟩
    | execTest =>
      simp only [go] at h
      split at h <;> cases h <;> exact ⟨_, [], id, by simp [St.set, St.touch] <;> rfl, neutral_id _, .inl rfl, by simp [St.set, St.touch], by simp [hand, St.set, St.touch]⟩
    | asleep => cases h
    | woken =>
      simp only [go] at h
      split at h
      · cases h; exact ⟨_, [], id, by simp [St.set, St.touch] <;> rfl, neutral_id _, .inl rfl, by simp [St.set, St.touch], by simp [hand, St.set, St.touch]⟩
      · cases h
    | execTake =>
      simp only [go] at h
      split at h
      · rename_i hrun
        split at h
        · rename_i he
          rcases I.take t _ ht rfl with h1 | h1
          · rw [hrun] at h1; cases h1
          · exact absurd he h1
        · rename_i f fs he
          cases h
          exact ⟨_, [f].filter callable, id, by simp [St.set, St.touch] <;> rfl, neutral_id _, .inl rfl, by simp [St.set, St.touch],
            by simp only [St.set, St.touch, hand, List.append_nil]; simp [List.filter_cons]⟩
      · cases h; exact ⟨_, [], id, by simp [St.set, St.touch] <;> rfl, neutral_id _, .inl rfl, by simp [St.set, St.touch], by simp [hand, St.set, St.touch]⟩
    | pollTake =>
      simp only [go] at h
      split at h
      · split at h
        · cases h; exact ⟨_, [], id, by simp [St.set, St.touch] <;> rfl, neutral_id _, .inl rfl, by simp [St.set, St.touch], by simp [hand, St.set, St.touch]⟩
        · rename_i f fs he
          cases h
          exact ⟨_, [f].filter callable, id, by simp [St.set, St.touch] <;> rfl, neutral_id _, .inl rfl, by simp [St.set, St.touch],
            by simp only [St.set, St.touch, hand, List.append_nil]; simp [List.filter_cons]⟩
      · cases h; exact ⟨_, [], id, by simp [St.set, St.touch] <;> rfl, neutral_id _, .inl rfl, by simp [St.set, St.touch], by simp [hand, St.set, St.touch]⟩
    | unlockFalse => cases h; exact hfin { s.touch with owner := none } false rest hr rfl rfl rfl rfl
    | unlockTask f => cases h; exact ⟨_, [], id, by simp [St.set, St.touch] <;> rfl, neutral_id _, .inl rfl, by simp [St.set, St.touch], by simp [hand, St.set, St.touch]⟩
    | start f =>
      simp only [go] at h
      split at h
      · rename_i hf
        cases h; exact ⟨_, [], id, by simp [St.set, St.note]; rfl, neutral_id _, .inl rfl, by simp [St.set, St.note], by simp [hand, St.set, St.note, begins, hf]⟩
      · rename_i hf
        cases h; exact hfin s true rest hr rfl rfl rfl (by simp [hand, hf])
    | body f => cases h
    | run => cases h
  · cases h; exact ⟨_, [], id, by simp [St.set]; rfl, neutral_id _, .inl rfl, by simp [St.set], by simp [hand, St.set]⟩
  · cases h; exact hfin s true _ (wf_rest hw) rfl rfl rfl rfl
  · rename_i f rest
    cases h
    have hr := wf_rest hw
    have hu : wfTail (unwind rest) = true := by
      unfold unwind
      split
      · exact (run_tail hr).1
      · exact hr
    have c5 := (tail_calm callable hu).2.2.2.2
    exact ⟨_, [], id, by simp [St.set]; rfl, neutral_id _, .inl rfl, by simp [St.set], by rw [c5]; simp [hand, St.set]⟩
  · cases h

/-- Calls that execute tasks. -/
def executes : Call α → Bool
  | .exec | .poll | .run => true
  | _ => false

/-- The state if only thread `e` executes tasks. -/
structure Sole (callable : α → Bool) (e : Nat) (s : St α) : Prop where
  others : ∀ (t : Nat) (fs : List (Frame α)), t ≠ e → s.threads[t]? = some fs → fs = [] ∨ ∃ fr, fs = [fr] ∧ plain fr = true
  order : begins s.log ++ hands callable s = s.taken.filter callable

theorem plain_step {s s' : St α} {t : Nat} {m : Move α} {fs : List (Frame α)} (ht : s.threads[t]? = some fs) (hfs : fs = [] ∨ ∃ fr, fs = [fr] ∧ plain fr = true)
    (hm : ∀ c, m = .call c → executes c = false) (h : step callable s t m = some s') :
    ∃ fs' g, s'.threads = (s.threads.map g).set t fs' ∧ (fs' = [] ∨ ∃ fr, fs' = [fr] ∧ plain fr = true) ∧ (g = id ∨ g = notify) ∧ s'.taken = s.taken ∧ begins s'.log = begins s.log := by
  unfold step at h
  rw [ht] at h
  rcases hfs with rfl | ⟨fr, rfl, hp⟩
  · cases m with
    | call c =>
      simp only at h
      cases h
      refine ⟨enter c, id, by simp [St.set], .inr ?_, .inl rfl, rfl, rfl⟩
      have := hm c rfl
      cases c <;> first | exact ⟨_, rfl, rfl⟩ | cases this
    | _ => cases h
  · cases m with
    | go =>
      simp only at h
      cases fr with
      | lock c =>
        simp only [go] at h
        split at h
        · cases h
          refine ⟨_, id, by simp [St.set, St.touch] <;> rfl, .inr ⟨_, rfl, ?_⟩, .inl rfl, rfl, rfl⟩
          cases c <;> first | rfl | cases hp
        · cases h
      | stopSet d => cases h; exact ⟨_, id, by simp [St.set, St.touch] <;> rfl, .inr ⟨_, rfl, rfl⟩, .inl rfl, rfl, rfl⟩
      | stopNotify d => cases h; exact ⟨_, notify, rfl, .inr ⟨_, rfl, rfl⟩, .inr rfl, rfl, rfl⟩
      | stopUnlock d => cases h; exact ⟨_, id, by simp [St.set, St.touch, St.note] <;> rfl, .inl rfl, .inl rfl, rfl, by simp [St.set, St.touch, St.note, begins]⟩
      | stoppedRead => cases h; exact ⟨_, id, by simp [St.set, St.touch] <;> rfl, .inr ⟨_, rfl, rfl⟩, .inl rfl, rfl, rfl⟩
      | stoppedUnlock b => cases h; exact ⟨_, id, by simp [St.set, St.touch, St.note] <;> rfl, .inl rfl, .inl rfl, rfl, by simp [St.set, St.touch, St.note, begins]⟩
      | postPush f => cases h; exact ⟨_, id, by simp [St.set, St.touch, St.note] <;> rfl, .inr ⟨_, rfl, rfl⟩, .inl rfl, rfl, by simp [St.set, St.touch, St.note, begins]⟩
      | postNotify => cases h; exact ⟨_, notify, rfl, .inr ⟨_, rfl, rfl⟩, .inr rfl, rfl, rfl⟩
      | postUnlock => cases h; exact ⟨_, id, by simp [St.set, St.touch] <;> rfl, .inl rfl, .inl rfl, rfl, rfl⟩
      | _ => cases hp
    | _ => cases fr <;> first | (cases hp; done) | (cases h; done)

theorem plain_hand {fs : List (Frame α)} (h : fs = [] ∨ ∃ fr, fs = [fr] ∧ plain fr = true) : hand callable fs = [] ∧ notify fs = fs := by
  rcases h with rfl | ⟨fr, rfl, hp⟩
  · exact ⟨rfl, rfl⟩
  · cases fr <;> first | exact ⟨rfl, rfl⟩ | cases hp

theorem flatMap_sole {β γ : Type} (f : β → List γ) : ∀ (l : List β) (e : Nat) (a : β), l[e]? = some a → (∀ t b, t ≠ e → l[t]? = some b → f b = []) → l.flatMap f = f a := by
  intro l
  induction l with
  | nil => intro e a h; simp at h
  | cons x l ih =>
    intro e a h ho
    cases e with
    | zero =>
      simp at h; subst h
      have : l.flatMap f = [] := by
        rw [List.flatMap_eq_nil_iff]
        intro b hb
        obtain ⟨t, ht⟩ := List.mem_iff_getElem?.1 hb
        exact ho (t + 1) b (by simp) (by simpa using ht)
      simp [this]
    | succ e =>
      simp at h
      have h0 : f x = [] := ho 0 x (by simp) rfl
      rw [List.flatMap_cons, h0, List.nil_append]
      exact ih e a h (fun t b hne hb => ho (t + 1) b (by simpa using hne) (by simpa using hb))

theorem sole_step {e : Nat} {s s' : St α} (I : Inv callable s) (S : Sole callable e s) {t : Nat} {m : Move α} (hm : ∀ c, m = .call c → executes c = true → t = e)
    (h : step callable s t m = some s') : Sole callable e s' := by
  have hth : ∃ fs, s.threads[t]? = some fs := by
    unfold step at h
    split at h
    · cases h
    · exact ⟨_, ‹_›⟩
  obtain ⟨fs, ht⟩ := hth
  have hlt : t < s.threads.length := by
    rcases Nat.lt_or_ge t s.threads.length with h | h
    · exact h
    · rw [List.getElem?_eq_none h] at ht; cases ht
  by_cases hte : t = e
  · subst hte
    obtain ⟨fs', extra, g, h1, h2, h3, h4, h5⟩ := step_order I ht h
    have hself : s'.threads[t]? = some fs' := by rw [h1, List.getElem?_set]; simp [hlt]
    have hoth : ∀ (t' : Nat) (fs1 : List (Frame α)), t' ≠ t → s'.threads[t']? = some fs1 → fs1 = [] ∨ ∃ fr, fs1 = [fr] ∧ plain fr = true := by
      intro t' fs1 hne h0
      rw [h1, List.getElem?_set, if_neg (fun e => hne e.symm), List.getElem?_map] at h0
      cases hs : s.threads[t']? with
      | none => rw [hs] at h0; cases h0
      | some fs0 =>
        rw [hs] at h0
        cases h0
        have hp := S.others t' fs0 hne hs
        rcases h3 with rfl | rfl
        · exact hp
        · rw [(plain_hand (callable := callable) hp).2]; exact hp
    refine ⟨hoth, ?_⟩
    have e1 : hands callable s = hand callable fs := flatMap_sole _ _ t fs ht (fun t' b hne hb => (plain_hand (S.others t' b hne hb)).1)
    have e2 : hands callable s' = hand callable fs' := flatMap_sole _ _ t fs' hself (fun t' b hne hb => (plain_hand (hoth t' b hne hb)).1)
    have := S.order
    rw [e1] at this
    rw [e2, h5, this, h4]
  · obtain ⟨fs', g, h1, h2, h3, h4, h5⟩ := plain_step ht (S.others t fs hte ht) (by
      intro c hc
      cases he : executes c with
      | false => rfl
      | true => exact absurd (hm c hc he) hte) h
    have hgid : ∀ fs : List (Frame α), hand callable (g fs) = hand callable fs := by
      intro fs
      rcases h3 with rfl | rfl
      · rfl
      · exact (neutral_notify callable).hand fs
    constructor
    · intro t' fs1 hne h0
      rw [h1, List.getElem?_set] at h0
      split at h0
      · split at h0
        · cases h0; exact h2
        · cases h0
      · rw [List.getElem?_map] at h0
        cases hs : s.threads[t']? with
        | none => rw [hs] at h0; cases h0
        | some fs0 =>
          rw [hs] at h0
          cases h0
          have hp := S.others t' fs0 hne hs
          rcases h3 with rfl | rfl
          · exact hp
          · rw [(plain_hand (callable := callable) hp).2]; exact hp
    · have hh : hands callable s' = hands callable s := by
        unfold hands
        rw [h1]
        have h0 := (plain_hand (callable := callable) (S.others t fs hte ht)).1
        have h0' := (plain_hand (callable := callable) h2).1
        have : ∀ (l : List (List (Frame α))) (t : Nat), l[t]? = some fs → ((l.map g).set t fs').flatMap (hand callable) = l.flatMap (hand callable) := by
          intro l
          induction l with
          | nil => intro t h; simp at h
          | cons x l ih =>
            intro t h
            have hm : (l.map g).flatMap (hand callable) = l.flatMap (hand callable) := by
              rw [List.flatMap_map]; congr 1; funext fs; exact hgid fs
            cases t with
            | zero =>
              simp at h; subst h
              simp only [List.map_cons, List.set_cons_zero, List.flatMap_cons, hm, h0, h0']
            | succ t =>
              simp at h
              simp only [List.map_cons, List.set_cons_succ, List.flatMap_cons, ih t h, hgid]
        exact this _ _ ht
      rw [hh, h5, h4]
      exact S.order

theorem sole_steps {e : Nat} {s s' : St α} (I : Inv callable s) (S : Sole callable e s) {ms : List (Nat × Move α)} (hm : ∀ t c, (t, .call c) ∈ ms → executes c = true → t = e)
    (h : steps callable s ms = some s') : Sole callable e s' := by
  induction ms generalizing s with
  | nil => cases h; exact S
  | cons m ms ih =>
    obtain ⟨t, m⟩ := m
    simp only [steps, Option.bind_eq_some_iff] at h
    obtain ⟨s1, h1, h2⟩ := h
    exact ih (inv_step I h1) (sole_step I S (by rintro c rfl; exact hm t c (by simp)) h1) (fun t c hc => hm t c (by simp [hc])) h2

/-- **C51** (part) If only one thread executes tasks (others may post, stop, ...), tasks are started in the order in which they were posted. Missing: several executing threads (refuted below). -/
theorem C51_order_partial (n e : Nat) (ms : List (Nat × Move α)) (hm : ∀ t c, (t, .call c) ∈ ms → executes c = true → t = e) (s : St α)
    (h : steps callable (St.init n) ms = some s) : begins s.log ++ hands callable s ++ s.tasks.filter callable = (posts s.log).filter callable := by
  have I := loop_inv h
  have S : Sole callable e s := sole_steps (inv_init callable n) ⟨by
      intro t fs _ ht
      simp only [St.init, List.getElem?_replicate] at ht
      split at ht <;> cases ht
      exact .inl rfl, by
      have : hands callable (St.init n) = [] := by simp [hands, St.init, List.flatMap_eq_nil_iff, List.mem_replicate, hand]
      rw [this]; rfl⟩ hm h
  rw [I.queue, List.filter_append, S.order]

/-- A thread makes all the steps it can of one call of `ExecOne` up to the unlocking of the mutex. -/
def takes (t : Nat) : List (Nat × Move α) := [(t, .call .exec), (t, .go), (t, .go), (t, .go), (t, .go)]
def postsOne (t : Nat) (f : α) : List (Nat × Move α) := [(t, .call (.post f)), (t, .go), (t, .go), (t, .go), (t, .go)]
def stops (t : Nat) : List (Nat × Move α) := [(t, .call .stop), (t, .go), (t, .go), (t, .go), (t, .go)]

/-- **C51** Refuted: with two threads executing tasks, the second task can be started before the first. -/
theorem C51_order_refuted : ∃ (ms : List (Nat × Move Nat)) (s : St Nat), steps (fun _ => true) (St.init 2) ms = some s ∧ posts s.log = [1, 2] ∧ begins s.log = [2, 1] :=
  ⟨postsOne 0 1 ++ postsOne 0 2 ++ takes 0 ++ takes 1 ++ [(1, .go), (0, .go)], _, rfl, rfl, rfl⟩

theorem get_set_self {l : List (List (Frame α))} {t : Nat} {x : List (Frame α)} (h : l[t]? = some x) (y : List (Frame α)) : (l.set t y)[t]? = some y := by
  obtain ⟨hlt, -⟩ := List.getElem?_eq_some_iff.1 h
  simp [hlt]

/-- A thread that is in no call calls `ExecOne`, takes the first task and unlocks the mutex. -/
theorem takes_steps {s : St α} {t : Nat} {f : α} {fs : List α} (ht : s.threads[t]? = some []) (ho : s.owner = none) (hr : s.running = true) (hq : s.tasks = f :: fs) :
    ∃ s', steps callable s (takes t) = some s' ∧ s'.log = s.log ∧ s'.owner = none ∧ s'.running = true ∧ s'.tasks = fs ∧ s'.threads = s.threads.set t [.start f] := by
  obtain ⟨hlt, -⟩ := List.getElem?_eq_some_iff.1 ht
  simp only [takes, steps, step, ht, Option.bind_some, St.set, enter, List.getElem?_set_self hlt, go, ho, if_true, St.touch, locked, List.set_set, List.length_set, hr, hq, List.isEmpty_cons,
      Bool.not_true, Bool.not_false, Bool.or_true, Option.some.injEq, exists_eq_left']
  simp

/-- **C51** Refuted: not only then. Whenever two tasks are in the queue, the scheduler is running, and two threads are in no call (and none has the mutex), the threads can go on so that the second task
    is started before the first, each by one call of `ExecOne`. -/
theorem C51_any_two_refuted {s : St α} {t u : Nat} {f g : α} {fs : List α} (htu : t ≠ u) (ht : s.threads[t]? = some []) (hu : s.threads[u]? = some []) (ho : s.owner = none) (hr : s.running = true)
    (hq : s.tasks = f :: g :: fs) (hf : callable f = true) (hg : callable g = true) :
    ∃ s', steps callable s (takes t ++ takes u ++ [(u, .go), (t, .go)]) = some s' ∧ s'.log = s.log ++ [.began u g, .began t f] := by
  obtain ⟨s1, h1, l1, o1, r1, q1, e1⟩ := takes_steps (callable := callable) ht ho hr hq
  have hu1 : s1.threads[u]? = some [] := by rw [e1, List.getElem?_set_ne htu]; exact hu
  obtain ⟨s2, h2, l2, o2, r2, q2, e2⟩ := takes_steps (callable := callable) hu1 o1 r1 q1
  have hu2 : s2.threads[u]? = some [.start g] := by rw [e2]; exact get_set_self hu1 _
  have ht2 : s2.threads[t]? = some [.start f] := by rw [e2, List.getElem?_set_ne htu.symm, e1]; exact get_set_self ht _
  rw [loop_append, loop_append, h1, Option.bind_some, h2, Option.bind_some]
  simp only [steps, step, hu2, go, hg, if_true, Option.bind_some, St.note, St.set, List.getElem?_set_ne htu.symm, ht2, hf, Option.some.injEq, exists_eq_left']
  simp [l2, l1]

/-- Three threads, two tasks posted by the third. -/
example : ∃ s : St Nat, steps (fun _ => true) (St.init 3) (postsOne 2 5 ++ postsOne 2 6) = some s ∧ s.threads[0]? = some [] ∧ s.threads[1]? = some [] ∧ s.owner = none ∧ s.running = true ∧
    s.tasks = [5, 6] := ⟨_, rfl, rfl, rfl, rfl, rfl, rfl⟩

/-- One thread runs two tasks, the first of which posts the second. -/
example : ∃ s : St Nat, steps (fun _ => true) (St.init 2) (postsOne 1 7 ++ takes 0 ++ [(0, .go)] ++ postsOne 0 8 ++ [(0, .ret)] ++ takes 0 ++ [(0, .go), (0, .throw)]) = some s ∧
    begins s.log = [7, 8] ∧ s.tasks = [] ∧ hands (fun _ => true) s = [] := ⟨_, rfl, rfl, rfl, rfl⟩

/-! ### C52 -/

/-- **C52** Whenever the mutex is free, a thread that sleeps does so rightly: the scheduler is running and the queue is empty. -/
theorem C52_no_lost_wakeup (n : Nat) (ms : List (Nat × Move α)) (s : St α) (h : steps callable (St.init n) ms = some s) (ho : s.owner = none)
    (t : Nat) (rest : List (Frame α)) (ht : s.threads[t]? = some (.asleep :: rest)) : s.running = true ∧ s.tasks = [] := by
  have I := loop_inv h
  rcases I.sleep t _ ht rfl with h1 | ⟨t', fs', h1, h2⟩
  · exact h1
  · rw [(I.cs t' fs' h1).1 (nt_cs h2)] at ho; cases ho

/-- **C52** Otherwise, a thread that has the mutex is about to notify; its next step wakes all. -/
theorem C52_pending_notification (n : Nat) (ms : List (Nat × Move α)) (s : St α) (h : steps callable (St.init n) ms = some s)
    (t : Nat) (rest : List (Frame α)) (ht : s.threads[t]? = some (.asleep :: rest)) (hn : ¬ (s.running = true ∧ s.tasks = [])) :
    ∃ t' s', s.owner = some t' ∧ step callable s t' .go = some s' ∧ s'.threads[t]? = some (.woken :: rest) := by
  have I := loop_inv h
  rcases I.sleep t _ ht rfl with h1 | ⟨t', fs', h1, h2⟩
  · exact absurd h1 hn
  · have ho := (I.cs t' fs' h1).1 (nt_cs h2)
    have hne : t' ≠ t := by
      rintro rfl
      rw [ht] at h1; cases h1; cases h2
    have hget : ∀ x, ((s.threads.map notify).set t' x)[t]? = some (.woken :: rest) := by
      intro x
      rw [List.getElem?_set, if_neg hne, List.getElem?_map, ht]; rfl
    match fs', h2 with
    | .stopNotify d :: r, _ => exact ⟨t', _, ho, by unfold step; rw [h1]; rfl, hget _⟩
    | .postNotify :: r, _ => exact ⟨t', _, ho, by unfold step; rw [h1]; rfl, hget _⟩

example : ∃ s : St Nat, steps (fun _ => true) (St.init 2) ([(0, .call .run), (0, .go), (0, .go)] ++ (postsOne 1 7).take 3) = some s ∧ s.threads = [[.asleep, .run], [.postNotify]] :=
  ⟨_, rfl, rfl⟩

/-! ### C53 -/

theorem touch_running (s : St α) : s.touch.running = s.running ∧ s.touch.taken = s.taken := ⟨rfl, rfl⟩

theorem finish_running (s : St α) (t : Nat) (b : Bool) (rest : List (Frame α)) : (finish s t b rest).running = s.running ∧ (finish s t b rest).taken = s.taken ∧
    ∃ o, (finish s t b rest).log = s.log ++ o := by
  unfold finish
  split
  · split
    · exact ⟨rfl, rfl, _, rfl⟩
    · exact ⟨rfl, rfl, [.result t false, .runReturned t], by simp [St.set, St.note]⟩
  · exact ⟨rfl, rfl, _, rfl⟩

/-- The log only grows; once stopped, the scheduler remains so and nothing is taken from the queue. -/
theorem stopped_step {s s' : St α} {t : Nat} {m : Move α} (h : step callable s t m = some s') :
    (∃ o, s'.log = s.log ++ o) ∧ (s.running = false → s'.running = false ∧ s'.taken = s.taken) := by
  unfold step at h
  split at h
  · cases h
  · split at h
    · cases h; exact ⟨⟨[], by simp [St.set]⟩, fun h => ⟨h, rfl⟩⟩
    · cases h; exact ⟨⟨[], by simp [St.set]⟩, fun h => ⟨h, rfl⟩⟩
    · rename_i fr rest _
      unfold go at h
      split at h
      all_goals try (split at h)
      all_goals try (split at h)
      all_goals first
        | cases h; done
        | (cases h; exact ⟨⟨_, rfl⟩, fun h => ⟨h, rfl⟩⟩)
        | (cases h; exact ⟨⟨[], by simp [St.set, St.touch]⟩, fun h => ⟨h, rfl⟩⟩)
        | (cases h; exact ⟨⟨[], by simp [St.set, St.touch]⟩, fun h => ⟨rfl, rfl⟩⟩)
        | (cases h; refine ⟨(finish_running _ _ _ _).2.2, fun h => ⟨(finish_running _ _ _ _).1.trans h, (finish_running _ _ _ _).2.1⟩⟩)
        | (cases h; exact ⟨⟨[], by simp [St.set, St.touch]⟩, fun h => by simp_all⟩)
    · cases h; exact ⟨⟨[], by simp [St.set]⟩, fun h => ⟨h, rfl⟩⟩
    · cases h; exact ⟨(finish_running _ _ _ _).2.2, fun h => ⟨(finish_running _ _ _ _).1.trans h, (finish_running _ _ _ _).2.1⟩⟩
    · cases h; exact ⟨⟨[], by simp [St.set]⟩, fun h => ⟨h, rfl⟩⟩
    · cases h

theorem stopped_steps {s s' : St α} {ms : List (Nat × Move α)} (h : steps callable s ms = some s') :
    (∃ o, s'.log = s.log ++ o) ∧ (s.running = false → s'.running = false ∧ s'.taken = s.taken) := by
  induction ms generalizing s with
  | nil => cases h; exact ⟨⟨[], by simp⟩, fun h => ⟨h, rfl⟩⟩
  | cons m ms ih =>
    obtain ⟨t, m⟩ := m
    simp only [steps, Option.bind_eq_some_iff] at h
    obtain ⟨s1, h1, h2⟩ := h
    obtain ⟨⟨o1, g1⟩, g2⟩ := stopped_step h1
    obtain ⟨⟨o2, k1⟩, k2⟩ := ih h2
    refine ⟨⟨o1 ++ o2, by rw [k1, g1, List.append_assoc]⟩, fun h => ?_⟩
    obtain ⟨a, b⟩ := g2 h
    obtain ⟨c, d⟩ := k2 a
    exact ⟨c, d.trans b⟩

/-- Past the store of `running = false` in `Stop`. -/
def stopping : List (Frame α) → Bool
  | .stopNotify _ :: _ => true
  | .stopUnlock _ :: _ => true
  | _ => false

structure StopInv (s : St α) : Prop where
  log : ∀ t, .stopReturned t ∈ s.log → s.running = false
  thr : ∀ (t : Nat) (fs : List (Frame α)), s.threads[t]? = some fs → stopping fs = true → s.running = false

theorem stopping_notify (fs : List (Frame α)) : stopping (notify fs) = stopping fs := by
  rcases notify_cases fs with ⟨rest, rfl, h⟩ | ⟨h1, h⟩ <;> rw [h]
  rfl

theorem stopping_tail {fs : List (Frame α)} (h : wfTail fs = true) : stopping fs = false := by
  match fs, h with
  | [], _ => rfl
  | .body _ :: rest, h => rfl
  | .run :: rest, h => rfl

/-- One step: what thread `t` is in next, and what it logs. -/
theorem stop_set {s s' : St α} {t : Nat} {fs' : List (Frame α)} (g : List (Frame α) → List (Frame α)) (hg : g = id ∨ g = notify) (S : StopInv s) (o : List (Obs α))
    (h1 : s'.threads = (s.threads.map g).set t fs') (h2 : s'.running = s.running) (h3 : s'.log = s.log ++ o) (h4 : ∀ t, .stopReturned t ∈ o → s.running = false)
    (h5 : stopping fs' = true → s.running = false) : StopInv s' := by
  constructor
  · intro t' h
    rw [h3, List.mem_append] at h
    rw [h2]
    exact h.elim (S.log t') (h4 t')
  · intro t' fs h hs
    rw [h2]
    rw [h1, List.getElem?_set] at h
    split at h
    · split at h
      · cases h; exact h5 hs
      · cases h
    · rw [List.getElem?_map] at h
      cases h0 : s.threads[t']? with
      | none => rw [h0] at h; cases h
      | some fs0 =>
        rw [h0] at h
        cases h
        refine S.thr t' fs0 h0 ?_
        rcases hg with rfl | rfl
        · exact hs
        · rwa [stopping_notify] at hs

theorem stop_finish {s s0 : St α} (S : StopInv s) {t : Nat} {b : Bool} {rest : List (Frame α)} (h0 : s0.threads = s.threads) (h1 : s0.running = s.running) (h2 : s0.log = s.log)
    (hw : wfTail rest = true) : StopInv (finish s0 t b rest) := by
  unfold finish
  split
  · split
    · exact stop_set id (.inl rfl) S [.result t true] (by simp [St.set, St.note, h0] <;> rfl) (by simp [St.set, St.note, h1]) (by simp [St.set, St.note, h2]) (by simp) (by simp [stopping])
    · refine stop_set id (.inl rfl) S [.result t false, .runReturned t] (by simp [St.set, St.note, h0] <;> rfl) (by simp [St.set, St.note, h1]) (by simp [St.set, St.note, h2]) (by simp) ?_
      rw [stopping_tail (run_tail hw).1]; simp
  · refine stop_set id (.inl rfl) S [.result t b] (by simp [St.set, St.note, h0] <;> rfl) (by simp [St.set, St.note, h1]) (by simp [St.set, St.note, h2]) (by simp) ?_
    rw [stopping_tail hw]; simp

theorem stop_step {s s' : St α} (I : Inv callable s) (S : StopInv s) {t : Nat} {m : Move α} (h : step callable s t m = some s') : StopInv s' := by
  have hr := (stopped_step h).2
  cases hrun : s.running with
  | false => exact ⟨fun _ _ => (hr hrun).1, fun _ _ _ _ => (hr hrun).1⟩
  | true =>
    unfold step at h
    split at h
    · cases h
    · rename_i fs ht
      have hwf := I.wf t fs ht
      split at h
      · rename_i c
        cases h
        refine stop_set id (.inl rfl) S [] (by simp [St.set] <;> rfl) rfl (by simp [St.set]) (by simp) ?_
        cases c <;> simp [enter, stopping]
      · rename_i c f rest
        cases h
        refine stop_set id (.inl rfl) S [] (by simp [St.set] <;> rfl) rfl (by simp [St.set]) (by simp) ?_
        cases c <;> simp [enter, stopping]
      · rename_i fr rest
        have hw := wf_rest hwf
        have hst := stopping_tail hw
        cases fr with
        | lock c =>
          simp only [go] at h
          split at h
          · cases h
            refine stop_set id (.inl rfl) S [] (by simp [St.set, St.touch] <;> rfl) rfl (by simp [St.set, St.touch]) (by simp) ?_
            cases c <;> simp [locked, stopping]
          · cases h
        | stopSet d => cases h; exact ⟨fun _ _ => rfl, fun _ _ _ _ => rfl⟩
        | stopNotify d => exact absurd (S.thr t _ ht rfl) (by simp [hrun])
        | stopUnlock d => exact absurd (S.thr t _ ht rfl) (by simp [hrun])
        | stoppedRead => cases h; exact stop_set id (.inl rfl) S [] (by simp [St.set, St.touch] <;> rfl) rfl (by simp [St.set, St.touch]) (by simp) (by simp [stopping])
        | stoppedUnlock b => cases h; exact stop_set id (.inl rfl) S [.stoppedReturned t b] (by simp [St.set, St.touch, St.note] <;> rfl) rfl (by simp [St.set, St.touch, St.note]) (by simp) (by simp [hst])
        | postPush f => cases h; exact stop_set id (.inl rfl) S [.posted f] (by simp [St.set, St.touch, St.note] <;> rfl) rfl (by simp [St.set, St.touch, St.note]) (by simp) (by simp [stopping])
        | postNotify => cases h; exact stop_set notify (.inr rfl) S [] rfl rfl (by simp [St.set, St.touch]) (by simp) (by simp [stopping])
        | postUnlock => cases h; exact stop_set id (.inl rfl) S [] (by simp [St.set, St.touch] <;> rfl) rfl (by simp [St.set, St.touch]) (by simp) (by simp [hst])
        | execTest =>
          simp only [go] at h
          split at h <;> cases h <;> exact stop_set id (.inl rfl) S [] (by simp [St.set, St.touch] <;> rfl) rfl (by simp [St.set, St.touch]) (by simp) (by simp [stopping])
        | woken =>
          simp only [go] at h
          split at h
          · cases h; exact stop_set id (.inl rfl) S [] (by simp [St.set, St.touch] <;> rfl) rfl (by simp [St.set, St.touch]) (by simp) (by simp [stopping])
          · cases h
        | execTake =>
          simp only [go, hrun, if_true] at h
          split at h <;> cases h
          · exact ⟨fun t h => hrun ▸ S.log t h, fun t fs h hs => hrun ▸ S.thr t fs h hs⟩
          · exact stop_set id (.inl rfl) S [] (by simp [St.set, St.touch] <;> rfl) rfl (by simp [St.set, St.touch]) (by simp) (by simp [stopping])
        | pollTake =>
          simp only [go, hrun, if_true] at h
          split at h <;> cases h <;> exact stop_set id (.inl rfl) S [] (by simp [St.set, St.touch] <;> rfl) rfl (by simp [St.set, St.touch]) (by simp) (by simp [stopping])
        | unlockFalse => cases h; exact stop_finish S rfl rfl rfl hw
        | unlockTask f => cases h; exact stop_set id (.inl rfl) S [] (by simp [St.set, St.touch] <;> rfl) rfl (by simp [St.set, St.touch]) (by simp) (by simp [stopping])
        | start f =>
          simp only [go] at h
          split at h <;> cases h
          · exact stop_set id (.inl rfl) S [.began t f] (by simp [St.set, St.note] <;> rfl) rfl (by simp [St.set, St.note]) (by simp) (by simp [stopping])
          · exact stop_finish S rfl rfl rfl hw
        | asleep => cases h
        | body f => cases h
        | run => cases h
      · cases h; exact stop_set id (.inl rfl) S [] (by simp [St.set] <;> rfl) rfl (by simp [St.set]) (by simp) (by simp [stopping])
      · cases h; exact stop_finish S rfl rfl rfl (wf_rest hwf)
      · rename_i f rest
        cases h
        refine stop_set id (.inl rfl) S [] (by simp [St.set] <;> rfl) rfl (by simp [St.set]) (by simp) ?_
        have hw := wf_rest hwf
        unfold unwind
        split
        · rw [stopping_tail (run_tail hw).1]; simp
        · rw [stopping_tail hw]; simp
      · cases h

theorem stop_steps {s s' : St α} (I : Inv callable s) (S : StopInv s) {ms : List (Nat × Move α)} (h : steps callable s ms = some s') : StopInv s' := by
  induction ms generalizing s with
  | nil => cases h; exact S
  | cons m ms ih =>
    obtain ⟨t, m⟩ := m
    simp only [steps, Option.bind_eq_some_iff] at h
    obtain ⟨s1, h1, h2⟩ := h
    exact ih (inv_step I h1) (stop_step I S h1) h2

theorem stop_init (n : Nat) : StopInv (St.init n : St α) := by
  constructor
  · intro t h; simp [St.init] at h
  · intro t fs h hs
    simp only [St.init, List.getElem?_replicate] at h
    split at h <;> cases h
    cases hs

/-- **C53** (part) After `Stop` has returned (to anyone), the only tasks still started are those that some thread had already taken from the queue: at most one per thread. Missing: these. -/
theorem C53_stop_partial (n : Nat) (ms ms' : List (Nat × Move α)) (s s' : St α) (h : steps callable (St.init n) ms = some s) (t : Nat) (hr : .stopReturned t ∈ s.log)
    (h' : steps callable s ms' = some s') : ∃ late, begins s'.log = begins s.log ++ late ∧ (late ++ hands callable s').Perm (hands callable s) ∧ s'.taken = s.taken := by
  have I := loop_inv h
  have I' := inv_steps I h'
  have S := stop_steps (inv_init callable n) (stop_init n) h
  obtain ⟨⟨o, ho⟩, hk⟩ := stopped_steps h'
  have hrun := (S.log t hr)
  have hb : begins s'.log = begins s.log ++ begins o := by rw [ho]; simp [begins]
  refine ⟨begins o, hb, ?_, (hk hrun).2⟩
  have p1 := I.once
  have p2 := I'.once
  rw [(hk hrun).2, hb, List.append_assoc] at p2
  exact (List.perm_append_left_iff _).1 (p2.trans p1.symm)

/-- **C53** (part) If no thread is between taking a task and starting it, nothing is started any more. -/
theorem C53_no_more_partial (n : Nat) (ms ms' : List (Nat × Move α)) (s s' : St α) (h : steps callable (St.init n) ms = some s) (t : Nat) (hr : .stopReturned t ∈ s.log)
    (hh : ∀ (t : Nat) (f : α) (rest : List (Frame α)), s.threads[t]? ≠ some (.unlockTask f :: rest) ∧ s.threads[t]? ≠ some (.start f :: rest))
    (h' : steps callable s ms' = some s') : begins s'.log = begins s.log := by
  obtain ⟨late, h1, h2, _⟩ := C53_stop_partial n ms ms' s s' h t hr h'
  have : hands callable s = [] := by
    unfold hands
    rw [List.flatMap_eq_nil_iff]
    intro fs hfs
    obtain ⟨t, ht⟩ := List.mem_iff_getElem?.1 hfs
    match fs, ht with
    | [], _ => rfl
    | fr :: rest, ht => cases fr <;> first | rfl | exact absurd ht (hh t _ rest).1 | exact absurd ht (hh t _ rest).2
  rw [this] at h2
  have := h2.eq_nil
  simp only [List.append_eq_nil_iff] at this
  rw [h1, this.1, List.append_nil]

/-- **C53** Refuted: a thread takes a task and unlocks the mutex; another calls `Stop`, which returns; then the task is started. -/
theorem C53_started_after_stop_refuted : ∃ (ms : List (Nat × Move Nat)) (s : St Nat), steps (fun _ => true) (St.init 2) ms = some s ∧
    s.log = [.posted 7, .stopReturned 1, .began 0 7] :=
  ⟨postsOne 1 7 ++ takes 0 ++ stops 1 ++ [(0, .go)], _, rfl, rfl⟩

/-- A thread that is in no call calls `Stop`, which returns. -/
theorem stops_steps {s : St α} {t u : Nat} {f : α} (hu : s.threads[u]? = some []) (ho : s.owner = none) (htu : t ≠ u) (ht : s.threads[t]? = some [.start f]) :
    ∃ s', steps callable s (stops u) = some s' ∧ s'.log = s.log ++ [.stopReturned u] ∧ s'.threads[t]? = some [.start f] := by
  obtain ⟨hlt, -⟩ := List.getElem?_eq_some_iff.1 hu
  simp only [stops, steps, step, hu, Option.bind_some, St.set, St.note, enter, List.getElem?_set_self hlt, go, ho, if_true, St.touch, locked, List.set_set, List.length_set, List.getElem?_map,
      List.map_set, List.length_map, List.getElem?_set_self, hlt, Option.some.injEq, exists_eq_left']
  simp [List.getElem?_set, htu.symm, ht, notify]

/-- **C53** Refuted: not only then. Whenever a task is in the queue, the scheduler is running, and two threads are in no call (and none has the mutex), the task can be started after `Stop` has returned. -/
theorem C53_any_started_refuted {s : St α} {t u : Nat} {f : α} {fs : List α} (htu : t ≠ u) (ht : s.threads[t]? = some []) (hu : s.threads[u]? = some []) (ho : s.owner = none) (hr : s.running = true)
    (hq : s.tasks = f :: fs) (hf : callable f = true) :
    ∃ s', steps callable s (takes t ++ stops u ++ [(t, .go)]) = some s' ∧ s'.log = s.log ++ [.stopReturned u, .began t f] := by
  obtain ⟨s1, h1, l1, o1, r1, q1, e1⟩ := takes_steps (callable := callable) ht ho hr hq
  have hu1 : s1.threads[u]? = some [] := by rw [e1, List.getElem?_set_ne htu]; exact hu
  have ht1 : s1.threads[t]? = some [.start f] := by rw [e1]; exact get_set_self ht _
  obtain ⟨s2, h2, l2, ht2⟩ := stops_steps (callable := callable) hu1 o1 htu ht1
  rw [loop_append, loop_append, h1, Option.bind_some, h2, Option.bind_some]
  simp only [steps, step, ht2, go, hf, if_true, Option.bind_some, St.note, St.set, Option.some.injEq, exists_eq_left']
  simp [l2, l1]

/-- A thread is in some phase `P` of a call, over the frames `rest`. However the threads go on, it remains in this phase, until a step of its own that does `D`. -/
theorem phase {P : Frame α → Prop} {D : List (Frame α) → Nat → St α → St α → Prop}
    (hn : ∀ fr rest, P fr → ∃ fr', P fr' ∧ notify (fr :: rest) = fr' :: rest)
    (hs : ∀ s s' t fr rest m, Inv callable s → s.running = false → s.threads[t]? = some (fr :: rest) → P fr → step callable s t m = some s' →
      (∃ fr', P fr' ∧ s'.threads[t]? = some (fr' :: rest)) ∨ D rest t s s')
    {s s' : St α} {t : Nat} {fr : Frame α} {rest : List (Frame α)} (I : Inv callable s) (hrun : s.running = false) (ht : s.threads[t]? = some (fr :: rest)) (hp : P fr)
    {ms : List (Nat × Move α)} (h : steps callable s ms = some s') :
    (∃ fr', P fr' ∧ s'.threads[t]? = some (fr' :: rest)) ∨
    ∃ ms1 m ms2 s1 s2, ms = ms1 ++ (t, m) :: ms2 ∧ steps callable s ms1 = some s1 ∧ step callable s1 t m = some s2 ∧ D rest t s1 s2 ∧ steps callable s2 ms2 = some s' := by
  induction ms generalizing s fr with
  | nil => cases h; exact .inl ⟨fr, hp, ht⟩
  | cons m ms ih =>
    obtain ⟨t', m⟩ := m
    simp only [steps, Option.bind_eq_some_iff] at h
    obtain ⟨s1, h1, h2⟩ := h
    have next : (∃ fr', P fr' ∧ s1.threads[t]? = some (fr' :: rest)) ∨ (t' = t ∧ D rest t s s1) := by
      by_cases hte : t' = t
      · subst hte
        exact (hs s s1 t' fr rest m I hrun ht hp h1).imp_right (fun h => ⟨rfl, h⟩)
      · left
        have hth : ∃ fs, s.threads[t']? = some fs := by
          unfold step at h1
          split at h1
          · cases h1
          · exact ⟨_, ‹_›⟩
        obtain ⟨fs, hfs⟩ := hth
        obtain ⟨fs', extra, g, g1, _, g3, _, _⟩ := step_order I hfs h1
        rw [g1, List.getElem?_set, if_neg hte, List.getElem?_map, ht]
        rcases g3 with rfl | rfl
        · exact ⟨fr, hp, rfl⟩
        · obtain ⟨fr', k1, k2⟩ := hn fr rest hp
          exact ⟨fr', k1, by rw [Option.map_some, k2]⟩
    rcases next with ⟨fr', k1, k2⟩ | ⟨rfl, k⟩
    · rcases ih (inv_step I h1) ((stopped_step h1).2 hrun).1 k2 k1 h2 with k | ⟨ms1, m', ms2, s2, s3, e1, e2, e3, e4, e5⟩
      · exact .inl k
      · exact .inr ⟨(t', m) :: ms1, m', ms2, s2, s3, by rw [e1]; rfl, by simp [steps, h1, e2], e3, e4, e5⟩
    · exact .inr ⟨[], m, ms, s, s1, rfl, rfl, h1, k, h2⟩

/-- In `ExecOne` or `PollOne`, and no task has been taken. -/
inductive Late : Frame α → Prop where
  | exec : Late (.lock .exec)
  | poll : Late (.lock .poll)
  | test : Late .execTest
  | asleep : Late .asleep
  | woken : Late .woken
  | take : Late .execTake
  | ptake : Late .pollTake
  | unlock : Late .unlockFalse

/-- `ExecOne` or `PollOne` returns false to its caller, `Run` or not, starting nothing; in the former case `Run` returns too. -/
inductive ReturnsFalse : List (Frame α) → Nat → St α → St α → Prop where
  | direct {rest t s s'} : (∀ r, rest ≠ .run :: r) → s'.log = s.log ++ [.result t false] → s'.threads[t]? = some rest → ReturnsFalse rest t s s'
  | run {rest t s s'} : s'.log = s.log ++ [.result t false, .runReturned t] → s'.threads[t]? = some rest → ReturnsFalse (.run :: rest) t s s'

theorem get_set {s : St α} {t : Nat} {fs : List (Frame α)} (fs' : List (Frame α)) (h : s.threads[t]? = some fs) : (s.threads.set t fs')[t]? = some fs' := by
  have hlt : t < s.threads.length := by
    rcases Nat.lt_or_ge t s.threads.length with k | k
    · exact k
    · rw [List.getElem?_eq_none k] at h; cases h
  rw [List.getElem?_set]; simp [hlt]

theorem late_step (s s' : St α) (t : Nat) (fr : Frame α) (rest : List (Frame α)) (m : Move α) (hrun : s.running = false) (ht : s.threads[t]? = some (fr :: rest)) (hp : Late fr)
    (h : step callable s t m = some s') : (∃ fr', Late fr' ∧ s'.threads[t]? = some (fr' :: rest)) ∨ ReturnsFalse rest t s s' := by
  unfold step at h
  rw [ht] at h
  cases hp with
  | exec =>
    cases m <;> simp only at h <;> try (cases h; done)
    simp only [go] at h
    split at h
    · cases h; exact .inl ⟨_, .test, get_set _ ht⟩
    · cases h
  | poll =>
    cases m <;> simp only at h <;> try (cases h; done)
    simp only [go] at h
    split at h
    · cases h; exact .inl ⟨_, .ptake, get_set _ ht⟩
    · cases h
  | test =>
    cases m <;> simp only at h <;> try (cases h; done)
    simp only [go] at h
    split at h
    · cases h; exact .inl ⟨_, .take, get_set _ ht⟩
    · cases h; exact .inl ⟨_, .asleep, get_set _ ht⟩
  | asleep =>
    cases m <;> simp only at h <;> try (cases h; done)
    cases h; exact .inl ⟨_, .woken, get_set _ ht⟩
  | woken =>
    cases m <;> simp only at h <;> try (cases h; done)
    simp only [go] at h
    split at h
    · cases h; exact .inl ⟨_, .test, get_set _ ht⟩
    · cases h
  | take =>
    cases m <;> simp only at h <;> try (cases h; done)
    simp only [go, hrun, Bool.false_eq_true, if_false] at h
    cases h; exact .inl ⟨_, .unlock, get_set _ ht⟩
  | ptake =>
    cases m <;> simp only at h <;> try (cases h; done)
    simp only [go, hrun, Bool.false_eq_true, if_false] at h
    cases h; exact .inl ⟨_, .unlock, get_set _ ht⟩
  | unlock =>
    cases m <;> simp only at h <;> try (cases h; done)
    cases h
    right
    unfold finish
    split
    · exact .run (by simp [St.set, St.note, St.touch]) (get_set _ ht)
    · exact .direct (by assumption) rfl (get_set _ ht)

/-- **C53** Once `Stop` has returned: a thread that calls `ExecOne` or `PollOne` (or is in there, and has not taken a task), starts nothing, and when it returns, it returns false.
`Run` returns too then. (That it can always return: `C53_returns`.) -/
theorem C53_calls_false (n : Nat) (ms ms' : List (Nat × Move α)) (s s' : St α) (h : steps callable (St.init n) ms = some s) (t' : Nat) (hr : .stopReturned t' ∈ s.log)
    (t : Nat) (fr : Frame α) (rest : List (Frame α)) (ht : s.threads[t]? = some (fr :: rest)) (hp : Late fr) (h' : steps callable s ms' = some s') :
    (∃ fr', Late fr' ∧ s'.threads[t]? = some (fr' :: rest)) ∨
    ∃ ms1 m ms2 s1 s2, ms' = ms1 ++ (t, m) :: ms2 ∧ steps callable s ms1 = some s1 ∧ step callable s1 t m = some s2 ∧ ReturnsFalse rest t s1 s2 ∧ steps callable s2 ms2 = some s' := by
  have S := stop_steps (inv_init callable n) (stop_init n) h
  refine phase (P := Late) (D := ReturnsFalse) ?_ ?_ (loop_inv h) (S.log t' hr) ht hp h'
  · intro fr rest hp
    cases hp <;> first | exact ⟨_, .woken, rfl⟩ | exact ⟨_, .exec, rfl⟩ | exact ⟨_, .poll, rfl⟩ | exact ⟨_, .test, rfl⟩ | exact ⟨_, .take, rfl⟩ | exact ⟨_, .ptake, rfl⟩ | exact ⟨_, .unlock, rfl⟩
  · intro s s' t fr rest m _ hrun ht hp h
    exact late_step s s' t fr rest m hrun ht hp h

/-- In `Stopped`, and the flag has not been read or was read as stopped. -/
inductive Asking : Frame α → Prop where
  | lock : Asking (.lock .stopped)
  | read : Asking .stoppedRead
  | unlock : Asking (.stoppedUnlock true)

inductive SaysStopped : List (Frame α) → Nat → St α → St α → Prop where
  | intro {rest t s s'} : s'.log = s.log ++ [.stoppedReturned t true] → s'.threads[t]? = some rest → SaysStopped rest t s s'

/-- **C53** Once `Stop` has returned, `Stopped()` returns true, for ever. -/
theorem C53_stopped_true (n : Nat) (ms ms' : List (Nat × Move α)) (s s' : St α) (h : steps callable (St.init n) ms = some s) (t' : Nat) (hr : .stopReturned t' ∈ s.log)
    (t : Nat) (fr : Frame α) (rest : List (Frame α)) (ht : s.threads[t]? = some (fr :: rest)) (hp : Asking fr) (h' : steps callable s ms' = some s') :
    (∃ fr', Asking fr' ∧ s'.threads[t]? = some (fr' :: rest)) ∨
    ∃ ms1 m ms2 s1 s2, ms' = ms1 ++ (t, m) :: ms2 ∧ steps callable s ms1 = some s1 ∧ step callable s1 t m = some s2 ∧ SaysStopped rest t s1 s2 ∧ steps callable s2 ms2 = some s' := by
  have S := stop_steps (inv_init callable n) (stop_init n) h
  refine phase (P := Asking) (D := SaysStopped) ?_ ?_ (loop_inv h) (S.log t' hr) ht hp h'
  · intro fr rest hp
    cases hp <;> first | exact ⟨_, .lock, rfl⟩ | exact ⟨_, .read, rfl⟩ | exact ⟨_, .unlock, rfl⟩
  · intro s s' t fr rest m _ hrun ht hp h
    unfold step at h
    rw [ht] at h
    cases hp with
    | lock =>
      cases m <;> simp only at h <;> try (cases h; done)
      simp only [go] at h
      split at h
      · cases h; exact .inl ⟨_, .read, get_set _ ht⟩
      · cases h
    | read =>
      cases m <;> simp only at h <;> try (cases h; done)
      cases h
      refine .inl ⟨_, .unlock, ?_⟩
      simp only [hrun]
      exact get_set _ ht
    | unlock =>
      cases m <;> simp only at h <;> try (cases h; done)
      cases h
      exact .inr ⟨rfl, get_set _ ht⟩

/-- A thread is blocked in `Run` while another stops the scheduler; then `Run` returns, and `Stopped` and `PollOne` answer accordingly, although a task is still in the queue. -/
example : ∃ s : St Nat, steps (fun _ => true) (St.init 2) ([(0, .call .run), (0, .go), (0, .go)] ++ stops 1 ++ postsOne 1 7 ++ [(0, .go), (0, .go), (0, .go), (0, .go)] ++
      [(1, .call .stopped), (1, .go), (1, .go), (1, .go), (1, .call .poll), (1, .go), (1, .go), (1, .go)]) = some s ∧
    s.log = [.stopReturned 1, .posted 7, .result 0 false, .runReturned 0, .stoppedReturned 1 true, .result 1 false] ∧ s.tasks = [7] := ⟨_, rfl, rfl, rfl⟩

/-! ### C54 -/

/-- **C54** While a task runs, or user code outside of all tasks, this thread does not hold the mutex: a task may call any method. -/
theorem C54_not_held (n : Nat) (ms : List (Nat × Move α)) (s : St α) (h : steps callable (St.init n) ms = some s) (t : Nat) :
    (∀ f rest, s.threads[t]? = some (.body f :: rest) → s.owner ≠ some t) ∧ (s.threads[t]? = some [] → s.owner ≠ some t) ∧
    (∀ c rest, s.threads[t]? = some (.lock c :: rest) → s.owner ≠ some t) ∧ (∀ rest, s.threads[t]? = some (.woken :: rest) → s.owner ≠ some t) := by
  have I := loop_inv h
  refine ⟨?_, ?_, ?_, ?_⟩
  · intro f rest ht ho; exact absurd ((I.cs t _ ht).2 ho) (by simp [csTop, cs])
  · intro ht ho; exact absurd ((I.cs t _ ht).2 ho) (by simp [csTop])
  · intro c rest ht ho; exact absurd ((I.cs t _ ht).2 ho) (by simp [csTop, cs])
  · intro rest ht ho; exact absurd ((I.cs t _ ht).2 ho) (by simp [csTop, cs])

/-- The accesses to the queue and the flag. -/
inductive Touches : Frame α → Prop where
  | stop (d) : Touches (.stopSet d)
  | stopped : Touches .stoppedRead
  | post (f) : Touches (.postPush f)
  | test : Touches .execTest
  | take : Touches .execTake
  | poll : Touches .pollTake

/-- **C54** At most one thread is about to access the queue or the flag: there are no data races on them. -/
theorem C54_exclusive (n : Nat) (ms : List (Nat × Move α)) (s : St α) (h : steps callable (St.init n) ms = some s) (t t' : Nat) (fr fr' : Frame α) (rest rest' : List (Frame α))
    (h1 : s.threads[t]? = some (fr :: rest)) (h2 : s.threads[t']? = some (fr' :: rest')) (k1 : Touches fr) (k2 : Touches fr') : t = t' := by
  have I := loop_inv h
  have o1 := (I.cs t _ h1).1 (by cases k1 <;> rfl)
  have o2 := (I.cs t' _ h2).1 (by cases k2 <;> rfl)
  rw [o1] at o2
  exact Option.some.inj o2

/-- How many steps the holder of the mutex needs at most to unlock it. -/
def weight : Frame α → Nat
  | .stopSet _ | .postPush _ | .execTest => 3
  | .stopNotify _ | .postNotify | .stoppedRead | .execTake | .pollTake => 2
  | .stopUnlock _ | .postUnlock | .stoppedUnlock _ | .unlockFalse | .unlockTask _ => 1
  | _ => 0

theorem finish_owner (s : St α) (t : Nat) (b : Bool) (rest : List (Frame α)) : (finish s t b rest).owner = s.owner := by
  unfold finish
  split
  · split <;> rfl
  · rfl

theorem weight_step {s : St α} (I : Inv callable s) {t : Nat} (ho : s.owner = some t) :
    ∃ fr rest, s.threads[t]? = some (fr :: rest) ∧ cs fr = true ∧ ∃ s', step callable s t .go = some s' ∧
      (s'.owner = none ∨ ∃ fr', s'.threads[t]? = some (fr' :: rest) ∧ s'.owner = some t ∧ weight fr' < weight fr) := by
  have hlt := I.own t ho
  obtain ⟨fs, ht⟩ : ∃ fs, s.threads[t]? = some fs := ⟨_, List.getElem?_eq_getElem hlt⟩
  have hc := (I.cs t fs ht).2 ho
  match fs, ht, hc with
  | fr :: rest, ht, hc =>
    refine ⟨fr, rest, ht, hc, ?_⟩
    have hs : step callable s t .go = go callable s t fr rest := by unfold step; rw [ht]
    rw [hs]
    have hget : ∀ x, ((s.threads.map notify).set t x)[t]? = some x := by
      intro x
      rw [List.getElem?_set]; simp [hlt]
    cases fr with
    | stopSet d => exact ⟨_, rfl, .inr ⟨_, get_set _ ht, ho, by simp [weight]⟩⟩
    | stopNotify d => exact ⟨_, rfl, .inr ⟨_, hget _, ho, by simp [weight]⟩⟩
    | stopUnlock d => exact ⟨_, rfl, .inl rfl⟩
    | stoppedRead => exact ⟨_, rfl, .inr ⟨_, get_set _ ht, ho, by simp [weight]⟩⟩
    | stoppedUnlock b => exact ⟨_, rfl, .inl rfl⟩
    | postPush f => exact ⟨_, rfl, .inr ⟨_, get_set _ ht, ho, by simp [weight]⟩⟩
    | postNotify => exact ⟨_, rfl, .inr ⟨_, hget _, ho, by simp [weight]⟩⟩
    | postUnlock => exact ⟨_, rfl, .inl rfl⟩
    | execTest =>
      simp only [go]
      split
      · exact ⟨_, rfl, .inr ⟨_, get_set _ ht, ho, by simp [weight]⟩⟩
      · exact ⟨_, rfl, .inl rfl⟩
    | execTake =>
      have htk := I.take t _ ht rfl
      simp only [go]
      cases hr : s.running with
      | false => exact ⟨_, rfl, .inr ⟨_, get_set _ ht, ho, by simp [weight]⟩⟩
      | true =>
        cases hq : s.tasks with
        | nil => rw [hr, hq] at htk; exact absurd htk (by simp)
        | cons f fs => exact ⟨_, rfl, .inr ⟨_, get_set _ ht, ho, by simp [weight]⟩⟩
    | pollTake =>
      simp only [go]
      cases hr : s.running with
      | false => exact ⟨_, rfl, .inr ⟨_, get_set _ ht, ho, by simp [weight]⟩⟩
      | true =>
        cases hq : s.tasks with
        | nil => exact ⟨_, rfl, .inr ⟨_, get_set _ ht, ho, by simp [weight]⟩⟩
        | cons f fs => exact ⟨_, rfl, .inr ⟨_, get_set _ ht, ho, by simp [weight]⟩⟩
    | unlockFalse => exact ⟨_, rfl, .inl (by rw [finish_owner])⟩
    | unlockTask f => exact ⟨_, rfl, .inl rfl⟩
    | _ => cases hc

/-- **C54** The holder of the mutex is never blocked, and unlocks it after at most three steps of its own. -/
theorem C54_released (n : Nat) (ms : List (Nat × Move α)) (s : St α) (h : steps callable (St.init n) ms = some s) (t : Nat) (ho : s.owner = some t) :
    ∃ k s', k ≤ 3 ∧ steps callable s (List.replicate k (t, .go)) = some s' ∧ s'.owner = none := by
  have main : ∀ (w : Nat) (s : St α), Inv callable s → s.owner = some t → (∀ fr rest, s.threads[t]? = some (fr :: rest) → weight fr ≤ w) →
      ∃ k s', k ≤ w ∧ steps callable s (List.replicate k (t, .go)) = some s' ∧ s'.owner = none := by
    intro w
    induction w with
    | zero =>
      intro s I ho hw
      obtain ⟨fr, rest, h1, h2, _⟩ := weight_step I ho
      have := hw fr rest h1
      cases fr <;> first | (cases h2; done) | (simp [weight] at this)
    | succ w ih =>
      intro s I ho hw
      obtain ⟨fr, rest, h1, h2, s', h3, h4⟩ := weight_step I ho
      rcases h4 with h4 | ⟨fr', h4, h5, h6⟩
      · exact ⟨1, s', by omega, by simp [steps, h3], h4⟩
      · have := hw fr rest h1
        obtain ⟨k, s2, k1, k2, k3⟩ := ih s' (inv_step I h3) h5 (by
          intro f r hf
          rw [h4] at hf
          cases hf
          omega)
        exact ⟨k + 1, s2, by omega, by simp [List.replicate_succ, steps, h3, k2], k3⟩
  refine main 3 s (loop_inv h) ho ?_
  intro fr rest _
  cases fr <;> simp [weight]

/-- **C54** No deadlock: a thread in a method (not asleep, not running a task) can go on, or waits for the mutex held by another that can go on. -/
theorem C54_no_deadlock (n : Nat) (ms : List (Nat × Move α)) (s : St α) (h : steps callable (St.init n) ms = some s) (t : Nat) (fr : Frame α) (rest : List (Frame α))
    (ht : s.threads[t]? = some (fr :: rest)) (h1 : fr ≠ .asleep) (h2 : ∀ f, fr ≠ .body f) :
    (∃ s', step callable s t .go = some s') ∨ ∃ t' s', t' ≠ t ∧ s.owner = some t' ∧ step callable s t' .go = some s' := by
  have I := loop_inv h
  have hs : step callable s t .go = go callable s t fr rest := by unfold step; rw [ht]
  have hnot := C54_not_held n ms s h t
  cases ho : s.owner with
  | some t' =>
    obtain ⟨fr', rest', k1, k2, s', k3, _⟩ := weight_step I ho
    by_cases hte : t' = t
    · subst hte; exact .inl ⟨s', k3⟩
    · exact .inr ⟨t', s', hte, rfl, k3⟩
  | none =>
    left
    rw [hs]
    have hc := I.cs t _ ht
    rw [ho] at hc
    cases fr with
    | lock c => exact ⟨_, by simp only [go, ho, if_true]; rfl⟩
    | woken => exact ⟨_, by simp only [go, ho, if_true]; rfl⟩
    | asleep => exact absurd rfl h1
    | body f => exact absurd rfl (h2 f)
    | run => have := I.wf t _ ht; simp [wf, headRun] at this
    | start f =>
      simp only [go]
      split
      · exact ⟨_, rfl⟩
      · exact ⟨_, rfl⟩
    | _ => simp [csTop, cs] at hc

/-- **C53** Once `Stop` has returned, nobody sleeps for ever: whenever the mutex is free, nobody sleeps at all. -/
theorem C53_nobody_sleeps (n : Nat) (ms : List (Nat × Move α)) (s : St α) (h : steps callable (St.init n) ms = some s) (t' : Nat) (hr : .stopReturned t' ∈ s.log) (ho : s.owner = none)
    (t : Nat) (rest : List (Frame α)) : s.threads[t]? ≠ some (.asleep :: rest) := by
  intro ht
  have S := stop_steps (inv_init callable n) (stop_init n) h
  have := (C52_no_lost_wakeup n ms s h ho t rest ht).1
  rw [S.log t' hr] at this
  cases this

/-- **C53** Once `Stop` has returned, a thread in `ExecOne`, `PollOne` or `Run` which has not taken a task, can return: if the mutex is free, it needs at most four steps. -/
theorem C53_returns (n : Nat) (ms : List (Nat × Move α)) (s : St α) (h : steps callable (St.init n) ms = some s) (t' : Nat) (hr : .stopReturned t' ∈ s.log) (ho : s.owner = none)
    (t : Nat) (fr : Frame α) (rest : List (Frame α)) (ht : s.threads[t]? = some (fr :: rest)) (hp : Late fr) :
    ∃ k s1 s2, k < 4 ∧ steps callable s (List.replicate k (t, .go)) = some s1 ∧ step callable s1 t .go = some s2 ∧ ReturnsFalse rest t s1 s2 := by
  have S := stop_steps (inv_init callable n) (stop_init n) h
  have hrun := S.log t' hr
  have I := loop_inv h
  -- the last step
  have last : ∀ s : St α, s.threads[t]? = some (.unlockFalse :: rest) → ∃ s2, step callable s t .go = some s2 ∧ ReturnsFalse rest t s s2 := by
    intro s ht
    refine ⟨_, by unfold step; rw [ht]; rfl, ?_⟩
    unfold finish
    split
    · exact .run (by simp [St.set, St.note, St.touch]) (get_set _ ht)
    · exact .direct (by assumption) rfl (get_set _ ht)
  have take : ∀ s : St α, s.running = false → s.threads[t]? = some (.execTake :: rest) → ∃ s1, step callable s t .go = some s1 ∧ s1.threads[t]? = some (.unlockFalse :: rest) := by
    intro s hr ht
    refine ⟨_, by unfold step; rw [ht]; simp only [go, hr]; rfl, get_set _ ht⟩
  have ptake : ∀ s : St α, s.running = false → s.threads[t]? = some (.pollTake :: rest) → ∃ s1, step callable s t .go = some s1 ∧ s1.threads[t]? = some (.unlockFalse :: rest) := by
    intro s hr ht
    refine ⟨_, by unfold step; rw [ht]; simp only [go, hr]; rfl, get_set _ ht⟩
  have test : ∀ s : St α, s.running = false → s.threads[t]? = some (.execTest :: rest) → ∃ s1, step callable s t .go = some s1 ∧ s1.running = false ∧ s1.threads[t]? = some (.execTake :: rest) := by
    intro s hr ht
    refine ⟨_, by unfold step; rw [ht]; simp only [go, hr]; rfl, ?_, ?_⟩
    · exact hr
    · exact get_set _ ht
  have fromTest : ∀ s : St α, s.running = false → s.threads[t]? = some (.execTest :: rest) →
      ∃ s1 s2, steps callable s (List.replicate 2 (t, .go)) = some s1 ∧ step callable s1 t .go = some s2 ∧ ReturnsFalse rest t s1 s2 := by
    intro s hr ht
    obtain ⟨a, a1, a2, a3⟩ := test s hr ht
    obtain ⟨b, b1, b2⟩ := take a a2 a3
    obtain ⟨c, c1, c2⟩ := last b b2
    exact ⟨b, c, by simp [List.replicate_succ, steps, a1, b1], c1, c2⟩
  have notcs : cs fr = true → False := by
    intro hc
    have := (I.cs t _ ht).1 hc
    rw [ho] at this; cases this
  cases hp with
  | exec =>
    obtain ⟨a, a1, a2, a3⟩ : ∃ s1, step callable s t .go = some s1 ∧ s1.running = false ∧ s1.threads[t]? = some (.execTest :: rest) :=
      by
        refine ⟨_, by unfold step; rw [ht]; simp only [go, ho, if_true]; rfl, ?_, ?_⟩
        · exact hrun
        · exact get_set _ ht
    obtain ⟨b, c, b1, b2, b3⟩ := fromTest a a2 a3
    exact ⟨3, b, c, by omega, by rw [List.replicate_succ]; simpa [steps, a1] using b1, b2, b3⟩
  | woken =>
    obtain ⟨a, a1, a2, a3⟩ : ∃ s1, step callable s t .go = some s1 ∧ s1.running = false ∧ s1.threads[t]? = some (.execTest :: rest) :=
      by
        refine ⟨_, by unfold step; rw [ht]; simp only [go, ho, if_true]; rfl, ?_, ?_⟩
        · exact hrun
        · exact get_set _ ht
    obtain ⟨b, c, b1, b2, b3⟩ := fromTest a a2 a3
    exact ⟨3, b, c, by omega, by rw [List.replicate_succ]; simpa [steps, a1] using b1, b2, b3⟩
  | poll =>
    obtain ⟨a, a1, a2, a3⟩ : ∃ s1, step callable s t .go = some s1 ∧ s1.running = false ∧ s1.threads[t]? = some (.pollTake :: rest) :=
      by
        refine ⟨_, by unfold step; rw [ht]; simp only [go, ho, if_true]; rfl, ?_, ?_⟩
        · exact hrun
        · exact get_set _ ht
    obtain ⟨b, b1, b2⟩ := ptake a a2 a3
    obtain ⟨c, c1, c2⟩ := last b b2
    exact ⟨2, b, c, by omega, by simp [List.replicate_succ, steps, a1, b1], c1, c2⟩
  | asleep => exact absurd ht (C53_nobody_sleeps n ms s h t' hr ho t rest)
  | _ => exact (notcs rfl).elim

/-- Two threads in critical regions of the same `Post`/`ExecOne` race: one holds the mutex, the other waits. -/
example : ∃ s : St Nat, steps (fun _ => true) (St.init 2) [(0, .call (.post 3)), (1, .call .exec), (0, .go), (0, .go)] = some s ∧
    s.threads = [[.postNotify], [.lock .exec]] ∧ s.owner = some 0 ∧ (step (fun _ => true) s 1 .go).isNone = true := ⟨_, rfl, rfl, rfl, rfl⟩

/-! ### C70 -/

def destroys : Frame α → Bool
  | .lock .destroy | .stopSet true | .stopNotify true | .stopUnlock true => true
  | _ => false

structure Alive (s : St α) : Prop where
  alive : s.alive = true
  ub : s.ub = false
  thr : ∀ (t : Nat) (fs : List (Frame α)), s.threads[t]? = some fs → ∀ fr ∈ fs, destroys fr = false

theorem alive_set {s s' : St α} {t : Nat} {fs' : List (Frame α)} (g : List (Frame α) → List (Frame α)) (hg : g = id ∨ g = notify) (A : Alive s)
    (h1 : s'.threads = (s.threads.map g).set t fs') (h2 : s'.alive = true) (h3 : s'.ub = false) (h4 : ∀ fr ∈ fs', destroys fr = false) : Alive s' := by
  refine ⟨h2, h3, ?_⟩
  intro t' fs h
  rw [h1, List.getElem?_set] at h
  split at h
  · split at h
    · cases h; exact h4
    · cases h
  · rw [List.getElem?_map] at h
    cases h0 : s.threads[t']? with
    | none => rw [h0] at h; cases h
    | some fs0 =>
      rw [h0] at h
      cases h
      have := A.thr t' fs0 h0
      rcases hg with rfl | rfl
      · exact this
      · rcases notify_cases fs0 with ⟨rest, rfl, k⟩ | ⟨_, k⟩ <;> rw [k]
        · intro fr hfr
          rcases List.mem_cons.1 hfr with rfl | hfr
          · rfl
          · exact this fr (List.mem_cons_of_mem _ hfr)
        · exact this

theorem alive_finish {s s0 : St α} (A : Alive s) {t : Nat} {b : Bool} {rest : List (Frame α)} (h0 : s0.threads = s.threads) (h1 : s0.alive = true) (h2 : s0.ub = false)
    (hr : ∀ fr ∈ rest, destroys fr = false) : Alive (finish s0 t b rest) := by
  unfold finish
  split
  · rename_i r
    split
    · refine alive_set id (.inl rfl) A (by simp [St.set, St.note, h0] <;> rfl) h1 h2 ?_
      intro fr hfr
      rcases List.mem_cons.1 hfr with rfl | hfr
      · rfl
      · exact hr fr hfr
    · exact alive_set id (.inl rfl) A (by simp [St.set, St.note, h0] <;> rfl) h1 h2 (fun fr hfr => hr fr (List.mem_cons_of_mem _ hfr))
  · exact alive_set id (.inl rfl) A (by simp [St.set, St.note, h0] <;> rfl) h1 h2 hr

theorem alive_step {s s' : St α} (I : Inv callable s) (A : Alive s) {t : Nat} {m : Move α} (hm : m ≠ .call .destroy) (h : step callable s t m = some s') : Alive s' := by
  have ha := A.alive
  have hu := A.ub
  have hu' : s.touch.ub = false := by simp [St.touch, ha, hu]
  unfold step at h
  split at h
  · cases h
  · rename_i fs ht
    have hfs := A.thr t fs ht
    split at h
    · rename_i c
      cases h
      refine alive_set id (.inl rfl) A (by simp [St.set] <;> rfl) ha hu ?_
      cases c <;> first | exact absurd rfl hm | simp [enter, destroys]
    · rename_i c f rest
      cases h
      refine alive_set id (.inl rfl) A (by simp [St.set] <;> rfl) ha hu ?_
      intro fr hfr
      rcases List.mem_append.1 hfr with hfr | hfr
      · cases c <;> first | exact absurd rfl hm | (simp [enter] at hfr; try (rcases hfr with rfl | rfl)) <;> (try subst hfr) <;> rfl
      · exact hfs fr hfr
    · rename_i fr rest
      have hr : ∀ fr ∈ rest, destroys fr = false := fun x hx => hfs x (List.mem_cons_of_mem _ hx)
      have h0 : destroys fr = false := hfs fr (by simp)
      have push : ∀ x : Frame α, destroys x = false → ∀ fr ∈ x :: rest, destroys fr = false := by
        intro x hx fr hfr
        rcases List.mem_cons.1 hfr with rfl | hfr
        · exact hx
        · exact hr fr hfr
      cases fr with
      | lock c =>
        simp only [go] at h
        split at h
        · cases h
          refine alive_set id (.inl rfl) A (by simp [St.set, St.touch] <;> rfl) ha hu' (push _ ?_)
          cases c <;> first | rfl | cases h0
        · cases h
      | stopSet d => cases h; exact alive_set id (.inl rfl) A (by simp [St.set, St.touch] <;> rfl) ha hu' (push _ (by cases d <;> first | rfl | cases h0))
      | stopNotify d => cases h; exact alive_set notify (.inr rfl) A rfl ha hu' (push _ (by cases d <;> first | rfl | cases h0))
      | stopUnlock d =>
        cases d with
        | true => cases h0
        | false => cases h; exact alive_set id (.inl rfl) A (by simp [St.set, St.touch, St.note] <;> rfl) (by simp [St.set, St.note, ha]) hu' hr
      | stoppedRead => cases h; exact alive_set id (.inl rfl) A (by simp [St.set, St.touch] <;> rfl) ha hu' (push _ rfl)
      | stoppedUnlock b => cases h; exact alive_set id (.inl rfl) A (by simp [St.set, St.touch, St.note] <;> rfl) ha hu' hr
      | postPush f => cases h; exact alive_set id (.inl rfl) A (by simp [St.set, St.touch, St.note] <;> rfl) ha hu' (push _ rfl)
      | postNotify => cases h; exact alive_set notify (.inr rfl) A rfl ha hu' (push _ rfl)
      | postUnlock => cases h; exact alive_set id (.inl rfl) A (by simp [St.set, St.touch] <;> rfl) ha hu' hr
      | execTest =>
        simp only [go] at h
        split at h <;> cases h <;> exact alive_set id (.inl rfl) A (by simp [St.set, St.touch] <;> rfl) ha hu' (push _ rfl)
      | woken =>
        simp only [go] at h
        split at h
        · cases h; exact alive_set id (.inl rfl) A (by simp [St.set, St.touch] <;> rfl) ha hu' (push _ rfl)
        · cases h
      | execTake =>
        have htk := I.take t _ ht rfl
        cases hr : s.running with
        | false =>
          simp only [go, hr, Bool.false_eq_true, if_false] at h
          cases h; exact alive_set id (.inl rfl) A (by simp [St.set, St.touch] <;> rfl) ha hu' (push _ rfl)
        | true =>
          cases hq : s.tasks with
          | nil => rw [hr, hq] at htk; exact absurd htk (by simp)
          | cons f fs =>
            simp only [go, hr, hq, if_true] at h
            cases h; exact alive_set id (.inl rfl) A (by simp [St.set, St.touch] <;> rfl) ha hu' (push _ rfl)
      | pollTake =>
        cases hr : s.running with
        | false =>
          simp only [go, hr, Bool.false_eq_true, if_false] at h
          cases h; exact alive_set id (.inl rfl) A (by simp [St.set, St.touch] <;> rfl) ha hu' (push _ rfl)
        | true =>
          cases hq : s.tasks with
          | nil => 
            simp only [go, hr, hq, if_true] at h
            cases h; exact alive_set id (.inl rfl) A (by simp [St.set, St.touch] <;> rfl) ha hu' (push _ rfl)
          | cons f fs =>
            simp only [go, hr, hq, if_true] at h
            cases h; exact alive_set id (.inl rfl) A (by simp [St.set, St.touch] <;> rfl) ha hu' (push _ rfl)
      | unlockFalse => cases h; exact alive_finish A rfl ha hu' hr
      | unlockTask f => cases h; exact alive_set id (.inl rfl) A (by simp [St.set, St.touch] <;> rfl) ha hu' (push _ rfl)
      | start f =>
        simp only [go] at h
        split at h <;> cases h
        · exact alive_set id (.inl rfl) A (by simp [St.set, St.note] <;> rfl) ha hu (push _ rfl)
        · exact alive_finish A rfl ha hu hr
      | asleep => cases h
      | body f => cases h
      | run => cases h
    · rename_i rest
      cases h
      refine alive_set id (.inl rfl) A (by simp [St.set] <;> rfl) ha hu ?_
      intro fr hfr
      rcases List.mem_cons.1 hfr with rfl | hfr
      · rfl
      · exact hfs fr (List.mem_cons_of_mem _ hfr)
    · cases h; exact alive_finish A rfl ha hu (fun x hx => hfs x (List.mem_cons_of_mem _ hx))
    · rename_i f rest
      cases h
      refine alive_set id (.inl rfl) A (by simp [St.set] <;> rfl) ha hu ?_
      intro fr hfr
      unfold unwind at hfr
      split at hfr
      · exact hfs fr (List.mem_cons_of_mem _ (List.mem_cons_of_mem _ hfr))
      · exact hfs fr (List.mem_cons_of_mem _ hfr)
    · cases h

theorem never_destroyed (n : Nat) (ms : List (Nat × Move α)) (hm : ∀ t, (t, .call .destroy) ∉ ms) (s : St α) (h : steps callable (St.init n) ms = some s) : Alive s := by
  have main : ∀ (ms : List (Nat × Move α)) (s s' : St α), Inv callable s → Alive s → (∀ t, (t, .call .destroy) ∉ ms) → steps callable s ms = some s' → Alive s' := by
    intro ms
    induction ms with
    | nil => intro s s' _ A _ h; cases h; exact A
    | cons m ms ih =>
      intro s s' I A hm h
      obtain ⟨t, m⟩ := m
      simp only [steps, Option.bind_eq_some_iff] at h
      obtain ⟨s1, h1, h2⟩ := h
      exact ih s1 s' (inv_step I h1) (alive_step I A (by rintro rfl; exact hm t (by simp)) h1) (fun t ht => hm t (by simp [ht])) h2
  refine (main ms (St.init n) s (inv_init callable n) ⟨rfl, rfl, ?_⟩ hm h)
  intro t fs ht
  simp only [St.init, List.getElem?_replicate] at ht
  split at ht <;> cases ht
  simp

/-- **C70** (part) As long as nobody destroys the scheduler, no use of it is undefined behaviour: in particular `front` and `pop` are never called on the empty queue. Missing: destruction (refuted below). -/
theorem C70_defined_partial (n : Nat) (ms : List (Nat × Move α)) (hm : ∀ t, (t, .call .destroy) ∉ ms) (s : St α) (h : steps callable (St.init n) ms = some s) : s.ub = false :=
  (never_destroyed n ms hm s h).ub

/-- **C70** (part) A scheduler on which no call is in progress can be destroyed: the destructor returns, and nothing undefined happens. Missing: that other threads may be in a call (refuted below). -/
theorem C70_idle_partial (n : Nat) (ms : List (Nat × Move α)) (hm : ∀ t, (t, .call .destroy) ∉ ms) (s : St α) (h : steps callable (St.init n) ms = some s) (hidle : ∀ fs ∈ s.threads, fs = [])
    (t : Nat) (ht : t < s.threads.length) :
    ∃ s', steps callable s [(t, .call .destroy), (t, .go), (t, .go), (t, .go), (t, .go)] = some s' ∧ s'.ub = false ∧ s'.alive = false ∧ s'.running = false ∧ s'.tasks = s.tasks ∧
      s'.log = s.log ++ [.stopReturned t] ∧ ∀ fs ∈ s'.threads, fs = [] := by
  have I := loop_inv h
  obtain ⟨hal, hub, _⟩ := never_destroyed n ms hm s h
  have hth : ∀ i, i < s.threads.length → s.threads[i]? = some [] := by
    intro i hi
    rw [List.getElem?_eq_getElem hi, hidle _ (List.getElem_mem hi)]
  have hown : s.owner = none := by
    cases ho : s.owner with
    | none => rfl
    | some t' =>
      have := (I.cs t' [] (hth t' (I.own t' ho))).2 ho
      cases this
  have g : ∀ (s : St α) (fr : Frame α) (rest : List (Frame α)), s.threads[t]? = some (fr :: rest) → step callable s t .go = go callable s t fr rest := by
    intro s fr rest h; simp [step, h]
  have e1 : step callable s t (.call .destroy) = some (s.set t [.lock .destroy]) := by simp [step, hth t ht, enter]
  have e2 : step callable (s.set t [.lock .destroy]) t .go = some ({ s.touch with owner := some t }.set t [.stopSet true]) := by
    rw [g _ (.lock .destroy) [] (by simp [St.set, ht])]; simp [go, St.set, St.touch, hown, locked]
  have e3 : step callable ({ s.touch with owner := some t }.set t [.stopSet true]) t .go = some ({ s.touch with owner := some t, running := false }.set t [.stopNotify true]) := by
    rw [g _ (.stopSet true) [] (by simp [St.set, St.touch, ht])]; simp [go, St.set, St.touch]
  have hmap : s.threads.map notify = s.threads := by
    rw [List.map_congr_left (g := id) (fun fs hfs => by rw [hidle fs hfs]; rfl), List.map_id]
  have e4 : step callable ({ s.touch with owner := some t, running := false }.set t [.stopNotify true]) t .go = some ({ s.touch with owner := some t, running := false }.set t [.stopUnlock true]) := by
    rw [g _ (.stopNotify true) [] (by simp [St.set, St.touch, ht])]
    simp [go, St.set, St.touch, List.map_set, hmap, List.set_set]
  have e5 : step callable ({ s.touch with owner := some t, running := false }.set t [.stopUnlock true]) t .go =
      some (({ s.touch with owner := none, running := false, alive := false }.note (.stopReturned t)).set t []) := by
    rw [g _ (.stopUnlock true) [] (by simp [St.set, St.touch, ht])]
    simp [go, St.set, St.touch, St.note, List.set_set]
  refine ⟨(({ s.touch with owner := none, running := false, alive := false }.note (.stopReturned t)).set t []), by simp only [steps]; rw [e1, Option.bind_some, e2, Option.bind_some, e3, Option.bind_some, e4, Option.bind_some, e5, Option.bind_some], by simp [St.set, St.note, St.touch, hub, hal], rfl, rfl, rfl, rfl, ?_⟩
  intro fs hfs
  rcases List.mem_or_eq_of_mem_set hfs with h1 | h1
  · exact hidle fs h1
  · exact h1

/-- A task has been posted and run, another one is still in the queue. -/
example : ∃ s : St Nat, steps (fun _ => true) (St.init 1) (postsOne 0 7 ++ [(0, .call .poll), (0, .go), (0, .go), (0, .go), (0, .go), (0, .ret)] ++ postsOne 0 8 ++ [(0, .call .destroy), (0, .go), (0, .go), (0, .go), (0, .go)]) = some s ∧
    s.log = [.posted 7, .began 0 7, .result 0 true, .posted 8, .stopReturned 0] ∧ s.ub = false ∧ s.alive = false := ⟨_, rfl, rfl, rfl, rfl⟩

/-- **C70** Refuted: the destructor calls `Stop`, which wakes the thread blocked in `Run`, but does not wait for it; that thread then locks the mutex of the destroyed object. -/
theorem C70_destroy_refuted : ∃ (ms : List (Nat × Move Nat)) (s : St Nat), steps (fun _ => true) (St.init 2) ms = some s ∧ s.ub = true ∧ s.log = [.stopReturned 1] :=
  ⟨[(0, .call .run), (0, .go), (0, .go), (1, .call .destroy), (1, .go), (1, .go), (1, .go), (1, .go), (0, .go)], _, rfl, rfl, rfl⟩

/-- The thread is in a method of the scheduler, at a step that uses the object (the call of a task does not). -/
def usesObject : Frame α → Bool
  | .start _ => false
  | .body _ => false
  | .run => false
  | _ => true

/-- **C70** (part) … and this is so in every state: once the destructor has returned, the next step of a thread that is still in a method (`Stop`, `Stopped`, `Post`, `ExecOne`, `PollOne` or
    `Run`, other than calling a task) is undefined behaviour, and undefined behaviour it stays, whatever follows. -/
theorem C70_used_after_refuted (s s1 s' : St α) (hd : s.alive = false) (t : Nat) (fr : Frame α) (rest : List (Frame α)) (ht : s.threads[t]? = some (fr :: rest)) (hu : usesObject fr = true)
    (h1 : step callable s t .go = some s1) (ms : List (Nat × Move α)) (h : steps callable s1 ms = some s') : s'.ub = true := by
  have fin : ∀ (s : St α) t b rest, (finish s t b rest).ub = s.ub := by
    intro s t b rest; unfold finish; split
    · split <;> rfl
    · rfl
  have e1 : s1.ub = true := by
    unfold step at h1
    rw [ht] at h1
    unfold go at h1
    cases fr <;> simp only [usesObject] at hu h1
    case lock c => split at h1 <;> cases h1; simp [St.set, St.touch, hd]
    case woken => split at h1 <;> cases h1; simp [St.set, St.touch, hd]
    case execTest => split at h1 <;> cases h1 <;> simp [St.set, St.touch, hd]
    case execTake =>
      split at h1
      · split at h1 <;> cases h1 <;> simp [St.set, St.touch, hd]
      · cases h1; simp [St.set, St.touch, hd]
    case pollTake =>
      split at h1
      · split at h1 <;> cases h1 <;> simp [St.set, St.touch, hd]
      · cases h1; simp [St.set, St.touch, hd]
    case unlockFalse => cases h1; rw [fin]; simp [St.set, St.touch, hd]
    all_goals first
      | (cases h1; done)
      | (cases h1; simp [St.set, St.touch, St.note, hd]; done)
      | (cases hu; done)
  have mono : ∀ (s s' : St α) t m, s.ub = true → step callable s t m = some s' → s'.ub = true := by
    intro s s' t m hs h
    unfold step at h
    split at h
    · cases h
    · split at h
      · cases h; exact hs
      · cases h; exact hs
      · rename_i fr rest hfs
        unfold go at h
        cases fr <;> simp only at h
        case lock c => split at h <;> cases h; simp [St.set, St.touch, hs]
        case woken => split at h <;> cases h; simp [St.set, St.touch, hs]
        case execTest => split at h <;> cases h <;> simp [St.set, St.touch, hs]
        case execTake =>
          split at h
          · split at h <;> cases h <;> simp [St.set, St.touch, hs]
          · cases h; simp [St.set, St.touch, hs]
        case pollTake =>
          split at h
          · split at h <;> cases h <;> simp [St.set, St.touch, hs]
          · cases h; simp [St.set, St.touch, hs]
        case unlockFalse => cases h; rw [fin]; simp [St.set, St.touch, hs]
        case start f =>
          split at h
          · cases h; simp [St.set, St.note, hs]
          · cases h; rw [fin]; exact hs
        all_goals first
          | (cases h; done)
          | (cases h; simp [St.set, St.touch, St.note, hs]; done)
      · cases h; exact hs
      · cases h; rw [fin]; exact hs
      · cases h; exact hs
      · cases h
  clear h1 ht
  induction ms generalizing s1 with
  | nil => cases h; exact e1
  | cons m ms ih =>
    obtain ⟨t', m⟩ := m
    simp only [steps] at h
    cases hst : step callable s1 t' m with
    | none => rw [hst] at h; cases h
    | some s2 => rw [hst] at h; exact ih s2 h (mono _ _ _ _ e1 hst)

/-- A scheduler destroyed while thread 0 was blocked in `Run`: thread 0 is woken, in a method of the object that is no more. -/
example : ∃ s : St Nat, steps (fun _ => true) (St.init 2) [(0, .call .run), (0, .go), (0, .go), (1, .call .destroy), (1, .go), (1, .go), (1, .go), (1, .go)] = some s ∧ s.alive = false ∧
    s.threads[0]? = some [.woken, .run] ∧ s.ub = false ∧ (step (fun _ => true) s 0 .go).isSome := ⟨_, rfl, rfl, rfl, rfl, rfl⟩

example : ∃ s : St Nat, steps (fun _ => true) (St.init 1) (postsOne 0 7 ++ [(0, .call .poll), (0, .go), (0, .go), (0, .go), (0, .go), (0, .ret)] ++ stops 0) = some s ∧
    s.log = [.posted 7, .began 0 7, .result 0 true, .stopReturned 0] ∧ s.ub = false := ⟨_, rfl, rfl, rfl⟩

end
end Verif.Props
