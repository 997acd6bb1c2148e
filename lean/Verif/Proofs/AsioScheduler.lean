import Verif.Model.AsioScheduler
import Verif.Proofs.Loop

set_option linter.unusedSimpArgs false

/-!
# Invariants of the asio scheduler
-/

namespace Verif.AsioScheduler
variable {α : Type}

def queuedOf (l : List (Obs α)) : List α := l.filterMap fun | .queued f => some f | _ => none
def begins (l : List (Obs α)) : List α := l.filterMap fun | .began _ f => some f | _ => none

/-- The function that has been taken from the queue and not yet called. -/
def hand (callable : α → Bool) : List (Frame α) → List α
  | .start _ f :: _ => if callable f then [f] else []
  | _ => []

def hands (callable : α → Bool) (s : St α) : List α := s.threads.flatMap (hand callable)

/-- A function that is about to be called, or running. -/
def busy : Frame α → Bool
  | .start _ _ => true
  | .body _ _ => true
  | _ => false

def busies (s : St α) : List (Frame α) := s.threads.flatMap (List.filter busy)

/-- Outer frames are running functions. -/
def isBody : Frame α → Bool
  | .body _ _ => true
  | _ => false

def wf (fs : List (Frame α)) : Prop := fs.tail.all isBody = true

structure Inv (callable : α → Bool) (s : St α) : Prop where
  wf : ∀ (t : Nat) (fs : List (Frame α)), s.threads[t]? = some fs → wf fs
  queue : queuedOf s.log = s.taken ++ s.queue
  once : (begins s.log ++ hands callable s).Perm (s.taken.filter callable)
  count : s.work = s.guard.toNat + s.queue.length + (busies s).length + s.pending

theorem inv_init (callable : α → Bool) (owned resets : Bool) (n : Nat) : Inv callable (St.init (α := α) owned resets n) := by
  refine ⟨?_, rfl, ?_, ?_⟩
  · intro t fs h
    simp only [St.init, List.getElem?_replicate] at h
    split at h <;> cases h
    rfl
  · simp [St.init, begins, hands, hand]
  · cases owned <;> simp [St.init, busies]

/-- What one step does to the thread concerned, and to the functions. -/
structure Eff (callable : α → Bool) (s s' : St α) (t : Nat) (fs fs' : List (Frame α)) (extra : List α) : Prop where
  threads : s'.threads = s.threads.set t fs'
  wf : wf fs → wf fs'
  taken : s'.taken = s.taken ++ extra
  queue : queuedOf s.log = s.taken ++ s.queue → queuedOf s'.log = s'.taken ++ s'.queue
  begins : begins s'.log ++ hand callable fs' = begins s.log ++ hand callable fs ++ extra.filter callable
  count : s.guard.toNat + s.queue.length + (fs.filter busy).length + s.pending ≤ s.work →
    s'.work + (s.guard.toNat + s.queue.length + (fs.filter busy).length + s.pending) = s.work + (s'.guard.toNat + s'.queue.length + (fs'.filter busy).length + s'.pending)

theorem hand_bodies (callable : α → Bool) {rest : List (Frame α)} (h : rest.all isBody = true) : hand callable rest = [] := by
  match rest, h with
  | [], _ => rfl
  | .body _ _ :: _, _ => rfl

theorem wf_bodies {rest : List (Frame α)} (h : rest.all isBody = true) : wf rest := by
  match rest, h with
  | [], _ => rfl
  | .body _ _ :: _, h => exact h

theorem begins_note (l : List (Obs α)) (o : Obs α) : begins (l ++ [o]) = begins l ++ begins [o] := by simp [begins]
theorem queuedOf_note (l : List (Obs α)) (o : Obs α) : queuedOf (l ++ [o]) = queuedOf l ++ queuedOf [o] := by simp [queuedOf]

theorem called_eq (s : St α) (t : Nat) (c : Call α) : ∃ l, s.called t c = { s with log := s.log ++ l } ∧ begins l = [] ∧ queuedOf l = [] := by
  cases c <;> first | exact ⟨[.stopCalled t], rfl, rfl, rfl⟩ | exact ⟨[], by simp [St.called], rfl, rfl⟩

/-- The thread that makes a move. -/
def Move.thread : Move α → Option Nat
  | .call t _ | .go t | .ret t | .throw t => some t
  | .begin | .complete _ => none

/-- One step: the thread concerned (none: others use the context). -/
theorem step_eff {callable : α → Bool} {s s' : St α} {m : Move α} (hw : ∀ (t : Nat) (fs : List (Frame α)), s.threads[t]? = some fs → wf fs) (h : step callable s m = some s') :
    (m.thread = none ∧ s'.threads = s.threads ∧ s'.taken = s.taken ∧ (queuedOf s.log = s.taken ++ s.queue → queuedOf s'.log = s'.taken ++ s'.queue) ∧ begins s'.log = begins s.log ∧ s'.guard = s.guard ∧
      s'.work + (s.queue.length + s.pending) = s.work + (s'.queue.length + s'.pending)) ∨
    ∃ t fs fs' extra, s.threads[t]? = some fs ∧ m.thread = some t ∧ Eff callable s s' t fs fs' extra := by
  cases m with
  | begin => cases h; exact .inl ⟨rfl, rfl, rfl, fun h => h, rfl, rfl, by simp; omega⟩
  | complete f =>
    simp only [step] at h
    split at h
    · cases h
    · cases h
      refine .inl ⟨rfl, rfl, rfl, ?_, by simp [St.note, begins], rfl, by simp [St.note]; omega⟩
      intro hq
      simp only [St.note, queuedOf_note, hq, List.append_assoc]
      rfl
  | call t c =>
    simp only [step] at h
    obtain ⟨l, hc, hb, hq⟩ := called_eq s t c
    have hb' : begins (s.log ++ l) = begins s.log := by rw [begins] at hb ⊢; simp only [List.filterMap_append, hb, List.append_nil]; rfl
    have hq' : queuedOf (s.log ++ l) = queuedOf s.log := by rw [queuedOf] at hq ⊢; simp only [List.filterMap_append, hq, List.append_nil]; rfl
    have hh : ∀ rest, hand callable (enter c :: rest) = [] := by intro rest; cases c <;> rfl
    have hbz : busy (enter c) = false := by cases c <;> rfl
    split at h
    · rename_i ht
      cases h
      refine .inr ⟨t, _, [enter c], [], ht, rfl, ?_, fun _ => rfl, ?_, ?_, ?_, ?_⟩
      · rw [hc]; rfl
      · rw [hc]; simp [St.set]
      · rw [hc]; intro hh; simpa only [St.set, hq'] using hh
      · rw [hc]; simp only [St.set, hb', hh]; simp [hand]
      · rw [hc]; intro _; simp [St.set, hbz, List.filter_cons]
    · rename_i k f rest ht
      cases h
      refine .inr ⟨t, _, enter c :: .body k f :: rest, [], ht, rfl, ?_, ?_, ?_, ?_, ?_, ?_⟩
      · rw [hc]; rfl
      · intro hw; simpa [wf, isBody] using hw
      · rw [hc]; simp [St.set]
      · rw [hc]; intro hh; simpa only [St.set, hq'] using hh
      · rw [hc]; simp only [St.set, hb', hh]; simp [hand]
      · rw [hc]; intro _; simp [St.set, List.filter_cons, hbz]
    · cases h
  | go t =>
    simp only [step] at h
    split at h
    · rename_i fr rest ht
      have hr : rest.all isBody = true := hw t _ ht
      have h5 := hand_bodies callable hr
      have h6 := wf_bodies hr
      refine .inr ⟨t, fr :: rest, ?_⟩
      cases fr with
      | stopReset =>
        cases h
        refine ⟨.stopContext :: rest, [], ht, rfl, ?_, fun h => h, ?_, ?_, ?_, ?_⟩
        · unfold St.reset; split <;> rfl
        · unfold St.reset; split <;> simp [St.set, St.release]
        · intro hq; unfold St.reset; split <;> simpa [St.set, St.release] using hq
        · unfold St.reset; split <;> simp [St.set, St.release, hand]
        · intro h2
          unfold St.reset
          split
          · rename_i hg
            simp only [Bool.and_eq_true] at hg
            simp only [St.set, St.release, hg.1, Bool.toNat_true, List.filter_cons, busy, Bool.toNat_false] at h2 ⊢
            simp at h2 ⊢
            omega
          · simp [St.set, busy, List.filter_cons]
      | stopContext =>
        cases h
        exact ⟨rest, [], ht, rfl, rfl, fun _ => h6, by simp [St.set, St.note], fun hq => by simpa [St.set, St.note, queuedOf] using hq, by first | (rw [h5]; simp [St.set, St.note, begins, hand]) | simp [St.set, St.note, begins, hand],
          fun _ => by simp [St.set, St.note, busy, List.filter_cons]⟩
      | post f =>
        cases h
        refine ⟨rest, [], ht, rfl, rfl, fun _ => h6, by simp [St.set, St.note], ?_, by first | (rw [h5]; simp [St.set, St.note, begins, hand]) | simp [St.set, St.note, begins, hand], fun _ => by simp [St.set, St.note, busy, List.filter_cons]; omega⟩
        intro hq
        simp only [St.set, St.note, queuedOf_note, hq, List.append_assoc]
        rfl
      | stopped =>
        cases h
        exact ⟨rest, [], ht, rfl, rfl, fun _ => h6, by simp [St.set, St.note], fun hq => by simpa [St.set, St.note, queuedOf] using hq, by first | (rw [h5]; simp [St.set, St.note, begins, hand]) | simp [St.set, St.note, begins, hand],
          fun _ => by simp [St.set, St.note, busy, List.filter_cons]⟩
      | check k =>
        simp only [go] at h
        split at h <;> cases h
        · exact ⟨rest, [], ht, rfl, rfl, fun _ => h6, by simp [St.set, St.note], fun hq => by simpa [St.set, St.note, queuedOf] using hq, by first | (rw [h5]; simp [St.set, St.note, begins, hand]) | simp [St.set, St.note, begins, hand],
            fun _ => by simp [St.set, St.note, busy, List.filter_cons]⟩
        · exact ⟨.next k :: rest, [], ht, rfl, rfl, fun h => h, by simp [St.set, St.note], fun hq => by simpa [St.set, St.note, queuedOf] using hq, by first | (rw [h5]; simp [St.set, St.note, begins, hand]) | simp [St.set, St.note, begins, hand],
            fun _ => by simp [St.set, St.note, busy, List.filter_cons]⟩
      | next k =>
        simp only [go] at h
        split at h
        · cases h
          exact ⟨rest, [], ht, rfl, rfl, fun _ => h6, by simp [St.set, St.note], fun hq => by simpa [St.set, St.note, queuedOf] using hq, by first | (rw [h5]; simp [St.set, St.note, begins, hand]) | simp [St.set, St.note, begins, hand],
            fun _ => by simp [St.set, St.note, busy, List.filter_cons]⟩
        · split at h
          · split at h
            · cases h
              exact ⟨rest, [], ht, rfl, rfl, fun _ => h6, by simp [St.set, St.note], fun hq => by simpa [St.set, St.note, queuedOf] using hq, by first | (rw [h5]; simp [St.set, St.note, begins, hand]) | simp [St.set, St.note, begins, hand],
                fun _ => by simp [St.set, St.note, busy, List.filter_cons]⟩
            · cases h
          · rename_i f fs he
            cases h
            refine ⟨.start k f :: rest, [f], ht, rfl, rfl, fun h => h, rfl, fun hq => ?_, ?_, fun _ => ?_⟩
            · rw [he] at hq; simpa [St.set] using hq
            · simp only [St.set, hand, List.filter_cons, List.append_nil]; simp
            · simp [St.set, he, busy, List.filter_cons]; omega
      | start k f =>
        simp only [go] at h
        split at h
        · rename_i hf
          cases h
          exact ⟨.body k f :: rest, [], ht, rfl, rfl, fun h => h, by simp [St.set, St.note], fun hq => by simpa [St.set, St.note, queuedOf] using hq, by simp [St.set, St.note, begins, hand, hf],
            fun _ => by simp [St.set, St.note, busy, List.filter_cons]⟩
        · rename_i hf
          cases h
          exact ⟨rest, [], ht, rfl, rfl, fun _ => h6, by simp [St.set, St.note, St.release], fun hq => by simpa [St.set, St.note, St.release, queuedOf] using hq,
            by rw [h5]; simp [St.set, St.note, St.release, begins, hand, hf],
            fun h2 => by simp [St.set, St.note, St.release, busy, List.filter_cons] at h2 ⊢; omega⟩
      | body k f => cases h
    · cases h
  | ret t =>
    simp only [step] at h
    split at h
    · rename_i f rest ht
      cases h
      have hr : rest.all isBody = true := hw t _ ht
      exact .inr ⟨t, _, .next .run :: rest, [], ht, rfl, rfl, fun h => h, by simp [St.set, St.note, St.release], fun hq => by simpa [St.set, St.note, St.release, queuedOf] using hq,
        by simp [St.set, St.note, St.release, begins, hand],
        fun h2 => by simp [St.set, St.note, St.release, busy, List.filter_cons] at h2 ⊢; omega⟩
    · rename_i k f rest _ ht
      cases h
      have hr : rest.all isBody = true := hw t _ ht
      exact .inr ⟨t, _, rest, [], ht, rfl, rfl, fun _ => wf_bodies hr, by simp [St.set, St.note, St.release], fun hq => by simpa [St.set, St.note, St.release, queuedOf] using hq,
        by rw [hand_bodies callable hr]; simp [St.set, St.note, St.release, begins, hand],
        fun h2 => by simp [St.set, St.note, St.release, busy, List.filter_cons] at h2 ⊢; omega⟩
    · cases h
  | throw t =>
    simp only [step] at h
    split at h
    · rename_i k f rest ht
      cases h
      have hr : rest.all isBody = true := hw t _ ht
      exact .inr ⟨t, _, rest, [], ht, rfl, rfl, fun _ => wf_bodies hr, by simp [St.set, St.note, St.release], fun hq => by simpa [St.set, St.note, St.release, queuedOf] using hq,
        by rw [hand_bodies callable hr]; simp [St.set, St.note, St.release, begins, hand],
        fun h2 => by simp [St.set, St.note, St.release, busy, List.filter_cons] at h2 ⊢; omega⟩
    · cases h

theorem get_set {s : St α} {t : Nat} {fs : List (Frame α)} (fs' : List (Frame α)) (h : s.threads[t]? = some fs) : (s.threads.set t fs')[t]? = some fs' := by
  have : t < s.threads.length := by
    rcases Nat.lt_or_ge t s.threads.length with h1 | h1
    · exact h1
    · rw [List.getElem?_eq_none h1] at h; cases h
  simp [this]

theorem inv_step {callable : α → Bool} {s s' : St α} {m : Move α} (I : Inv callable s) (h : step callable s m = some s') : Inv callable s' := by
  rcases step_eff I.wf h with ⟨_, h1, h2, h3, h4, h5, h6⟩ | ⟨t, fs, fs', extra, ht, _, E⟩
  · refine ⟨fun t fs ht => I.wf t fs (h1 ▸ ht), h3 I.queue, ?_, ?_⟩
    · have := I.once
      unfold hands at this ⊢
      rw [h4, h1, h2]; exact this
    · have := I.count
      unfold busies at this ⊢
      rw [h1, h5]; omega
  · refine ⟨?_, E.queue I.queue, ?_, ?_⟩
    · intro t' fs1 h1
      rw [E.threads] at h1
      by_cases he : t = t'
      · subst he
        rw [get_set _ ht] at h1
        cases h1
        exact E.wf (I.wf t fs ht)
      · rw [List.getElem?_set_ne he] at h1
        exact I.wf t' fs1 h1
    · have p := Loop.flatMap_set (hand callable) s.threads t fs fs' ht
      have hb := E.begins
      have ho := I.once
      unfold hands at ho ⊢
      rw [E.threads, E.taken, List.filter_append]
      -- begins' ++ hands' ~ taken ++ extra
      have p1 : (begins s'.log ++ (hand callable fs ++ (s.threads.set t fs').flatMap (hand callable))).Perm (begins s'.log ++ hand callable fs' ++ s.threads.flatMap (hand callable)) := by
        rw [List.append_assoc]; exact p.append_left _
      rw [hb] at p1
      have p2 : (hand callable fs ++ (begins s'.log ++ (s.threads.set t fs').flatMap (hand callable))).Perm (hand callable fs ++ (List.filter callable s.taken ++ List.filter callable extra)) := by
        refine List.Perm.trans ?_ (p1.trans ?_)
        · rw [← List.append_assoc, ← List.append_assoc]; exact List.perm_append_comm.append_right _
        · calc begins s.log ++ hand callable fs ++ List.filter callable extra ++ s.threads.flatMap (hand callable)
              _ = begins s.log ++ (hand callable fs ++ (List.filter callable extra ++ s.threads.flatMap (hand callable))) := by simp
              _ |>.Perm (begins s.log ++ (hand callable fs ++ (s.threads.flatMap (hand callable) ++ List.filter callable extra))) := (List.perm_append_comm.append_left _).append_left _
              _ |>.Perm (hand callable fs ++ (begins s.log ++ (s.threads.flatMap (hand callable) ++ List.filter callable extra))) := by
                rw [← List.append_assoc, ← List.append_assoc (hand callable fs)]; exact List.perm_append_comm.append_right _
              _ |>.Perm _ := by
                rw [← List.append_assoc (begins s.log)]; exact (ho.append_right _).append_left _
      exact (List.perm_append_left_iff _).1 p2
    · have p := (Loop.flatMap_set (List.filter busy) s.threads t fs fs' ht).length_eq
      have hc := I.count
      unfold busies at hc ⊢
      rw [E.threads]
      simp only [List.length_append] at p
      have hle : (fs.filter busy).length ≤ (s.threads.flatMap (List.filter busy)).length := by
        have hm : fs ∈ s.threads := List.mem_of_getElem? ht
        rw [List.flatMap_def]
        exact (List.sublist_flatten_of_mem (List.mem_map.2 ⟨fs, hm, rfl⟩)).length_le
      have := E.count (by omega)
      omega

theorem inv_steps {callable : α → Bool} {s s' : St α} {ms : List (Move α)} (I : Inv callable s) (h : steps callable s ms = some s') : Inv callable s' := by
  induction ms generalizing s with
  | nil => cases h; exact I
  | cons m ms ih =>
    simp only [steps, Option.bind_eq_some_iff] at h
    obtain ⟨s1, h1, h2⟩ := h
    exact ih (inv_step I h1) h2

end Verif.AsioScheduler
