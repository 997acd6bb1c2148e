import Verif.Model.Loop

set_option linter.unusedSimpArgs false

/-!
# Invariants of the loop scheduler
-/

namespace Verif.Loop
variable {α : Type}

/-! ### Classification of frames -/

/-- The mutex is held. -/
def cs : Frame α → Bool
  | .stopSet _ | .stopNotify _ | .stopUnlock _ | .stoppedRead | .stoppedUnlock _ | .postPush _ | .postNotify | .postUnlock
  | .execTest | .execTake | .pollTake | .unlockFalse | .unlockTask _ => true
  | _ => false

def csTop : List (Frame α) → Bool
  | fr :: _ => cs fr
  | [] => false

/-- Outer frames are tasks and `Run`, the latter called from a task or from outside. -/
def wfTail : List (Frame α) → Bool
  | [] => true
  | .body _ :: rest => wfTail rest
  | .run :: .body _ :: rest => wfTail rest
  | [.run] => true
  | _ => false

/-- Frames of methods that `Run` does not call. -/
def plain : Frame α → Bool
  | .stopSet _ | .stopNotify _ | .stopUnlock _ | .stoppedRead | .stoppedUnlock _ | .postPush _ | .postNotify | .postUnlock => true
  | .lock .exec | .lock .run | .lock .poll => false
  | .lock _ => true
  | _ => false

def headRun : List (Frame α) → Bool
  | .run :: _ => true
  | _ => false

/-- `Run` is never innermost. -/
def wf : List (Frame α) → Bool
  | [] => true
  | fr :: rest => !headRun [fr] && wfTail rest && (!plain fr || !headRun rest)

theorem wf_tail {fs : List (Frame α)} (h : wfTail fs = true) : (headRun fs = false ∧ wf fs = true) ∨ ∃ rest, fs = .run :: rest ∧ wf rest = true := by
  match fs, h with
  | [], _ => exact .inl ⟨rfl, rfl⟩
  | .body _ :: rest, h => exact .inl ⟨rfl, by simpa [wf, wfTail, headRun, plain] using h⟩
  | .run :: .body _ :: rest, h => exact .inr ⟨_, rfl, by simpa [wf, wfTail, headRun, plain] using h⟩
  | [.run], _ => exact .inr ⟨_, rfl, rfl⟩

def nt : List (Frame α) → Bool
  | .stopNotify _ :: _ => true
  | .postNotify :: _ => true
  | _ => false

def tk : List (Frame α) → Bool
  | .execTake :: _ => true
  | _ => false

def asl : List (Frame α) → Bool
  | .asleep :: _ => true
  | _ => false

/-- The task that has been taken from the queue and not yet started. -/
def hand (callable : α → Bool) : List (Frame α) → List α
  | .unlockTask f :: _ => if callable f then [f] else []
  | .start f :: _ => if callable f then [f] else []
  | _ => []

def posts (l : List (Obs α)) : List α := l.filterMap fun | .posted f => some f | _ => none
def begins (l : List (Obs α)) : List α := l.filterMap fun | .began _ f => some f | _ => none

/-- The tasks taken and not yet started. -/
def hands (callable : α → Bool) (s : St α) : List α := s.threads.flatMap (hand callable)

structure Inv (callable : α → Bool) (s : St α) : Prop where
  wf : ∀ (t : Nat) (fs : List (Frame α)), s.threads[t]? = some fs → wf fs = true
  cs : ∀ (t : Nat) (fs : List (Frame α)), s.threads[t]? = some fs → (csTop fs = true ↔ s.owner = some t)
  own : ∀ t, s.owner = some t → t < s.threads.length
  take : ∀ (t : Nat) (fs : List (Frame α)), s.threads[t]? = some fs → tk fs = true → s.running = false ∨ s.tasks ≠ []
  sleep : ∀ (t : Nat) (fs : List (Frame α)), s.threads[t]? = some fs → asl fs = true → (s.running = true ∧ s.tasks = []) ∨ ∃ (t' : Nat) (fs' : List (Frame α)), s.threads[t']? = some fs' ∧ nt fs' = true
  queue : posts s.log = s.taken ++ s.tasks
  once : (begins s.log ++ hands callable s).Perm (s.taken.filter callable)

theorem nt_cs {fs : List (Frame α)} (h : nt fs = true) : csTop fs = true := by
  match fs, h with
  | .stopNotify _ :: _, _ => rfl
  | .postNotify :: _, _ => rfl

theorem tk_cs {fs : List (Frame α)} (h : tk fs = true) : csTop fs = true := by
  match fs, h with
  | .execTake :: _, _ => rfl

/-- What happens to the frames of the other threads. -/
structure Neutral (callable : α → Bool) (g : List (Frame α) → List (Frame α)) : Prop where
  wf : ∀ fs, wf (g fs) = wf fs
  cs : ∀ fs, csTop (g fs) = csTop fs
  nt : ∀ fs, nt (g fs) = nt fs
  tk : ∀ fs, tk (g fs) = tk fs
  asl : ∀ fs, asl (g fs) = true → asl fs = true
  hand : ∀ fs, hand callable (g fs) = hand callable fs

theorem neutral_id (callable : α → Bool) : Neutral (α := α) callable id := ⟨fun _ => rfl, fun _ => rfl, fun _ => rfl, fun _ => rfl, fun _ h => h, fun _ => rfl⟩

theorem notify_cases (fs : List (Frame α)) : (∃ rest, fs = .asleep :: rest ∧ notify fs = .woken :: rest) ∨ (asl fs = false ∧ notify fs = fs) := by
  unfold notify asl
  split
  · exact .inl ⟨_, rfl, rfl⟩
  · rename_i h
    refine .inr ⟨?_, rfl⟩
    split
    · exact absurd rfl (h _)
    · rfl

theorem neutral_notify (callable : α → Bool) : Neutral (α := α) callable notify := by
  refine ⟨?_, ?_, ?_, ?_, ?_, ?_⟩ <;> intro fs <;> rcases notify_cases fs with ⟨rest, rfl, h⟩ | ⟨h1, h⟩ <;> rw [h] <;>
    first | rfl | (intro h; exact h) | (intro _; rfl)

theorem notify_awake (fs : List (Frame α)) : asl (notify fs) = false := by
  rcases notify_cases fs with ⟨rest, rfl, h⟩ | ⟨h1, h⟩ <;> rw [h]
  · rfl
  · exact h1

theorem flatMap_set {β γ : Type} (h : β → List γ) : ∀ (l : List β) (t : Nat) (a b : β), l[t]? = some a → (h a ++ (l.set t b).flatMap h).Perm (h b ++ l.flatMap h) := by
  intro l
  induction l with
  | nil => intro t a b hh; simp at hh
  | cons x l ih =>
    intro t a b hh
    cases t with
    | zero =>
      simp at hh
      subst hh
      simp only [List.set_cons_zero, List.flatMap_cons]
      rw [← List.append_assoc, ← List.append_assoc]
      exact List.Perm.append_right _ List.perm_append_comm
    | succ t =>
      simp at hh
      have := ih t a b hh
      simp only [List.set_cons_succ, List.flatMap_cons]
      calc (h a ++ (h x ++ (l.set t b).flatMap h)).Perm (h x ++ (h a ++ (l.set t b).flatMap h)) := by
            rw [← List.append_assoc, ← List.append_assoc]; exact List.Perm.append_right _ List.perm_append_comm
        _ |>.Perm (h x ++ (h b ++ l.flatMap h)) := List.Perm.append_left _ this
        _ |>.Perm (h b ++ (h x ++ l.flatMap h)) := by
            rw [← List.append_assoc, ← List.append_assoc]; exact List.Perm.append_right _ List.perm_append_comm

/-- A step of thread `t`. -/
theorem inv_upd {callable : α → Bool} {s s' : St α} (I : Inv callable s) {t : Nat} {fs fs' : List (Frame α)} (ht : s.threads[t]? = some fs)
    (g : List (Frame α) → List (Frame α)) (hg : Neutral callable g) (hth : s'.threads = (s.threads.map g).set t fs')
    (hwf : Loop.wf fs' = true) (hcs : csTop fs' = true ↔ s'.owner = some t) (hoth : ∀ t', t' ≠ t → (s'.owner = some t' ↔ s.owner = some t'))
    (hdata : (s'.running = s.running ∧ s'.tasks = s.tasks) ∨ s.owner = some t)
    (htk : tk fs' = true → s'.running = false ∨ s'.tasks ≠ [])
    (hasl : asl fs' = true → s'.running = true ∧ s'.tasks = [])
    (hsl : (s'.running = s.running ∧ s'.tasks = s.tasks ∧ nt fs = false) ∨ nt fs' = true ∨ (∀ fs, asl (g fs) = false) ∨
      (s.owner = some t ∧ nt fs = false ∧ ¬ (s.running = true ∧ s.tasks = [])))
    (hq : posts s'.log = s'.taken ++ s'.tasks) (extra : List α) (hx : s'.taken.filter callable = s.taken.filter callable ++ extra)
    (hp : (begins s'.log ++ hand callable fs').Perm (begins s.log ++ hand callable fs ++ extra)) : Inv callable s' := by
  have hlt : t < s.threads.length := by
    rcases Nat.lt_or_ge t s.threads.length with h | h
    · exact h
    · rw [List.getElem?_eq_none h] at ht; cases ht
  have hget : ∀ t' fs1, s'.threads[t']? = some fs1 → (t' = t ∧ fs1 = fs') ∨ (t' ≠ t ∧ ∃ fs0, s.threads[t']? = some fs0 ∧ fs1 = g fs0) := by
    intro t' fs1 h
    rw [hth, List.getElem?_set] at h
    split at h
    · rename_i he
      split at h
      · cases h; exact .inl ⟨he.symm, rfl⟩
      · cases h
    · rename_i he
      rw [List.getElem?_map] at h
      cases h0 : s.threads[t']? with
      | none => rw [h0] at h; cases h
      | some fs0 => rw [h0] at h; cases h; exact .inr ⟨fun e => he e.symm, fs0, rfl, rfl⟩
  have hself : s'.threads[t]? = some fs' := by rw [hth, List.getElem?_set]; simp [hlt]
  have hother : ∀ t' fs0, t' ≠ t → s.threads[t']? = some fs0 → s'.threads[t']? = some (g fs0) := by
    intro t' fs0 hne h
    rw [hth, List.getElem?_set, if_neg (fun e => hne e.symm), List.getElem?_map, h]
    rfl
  constructor
  · intro t' fs1 h
    rcases hget t' fs1 h with ⟨rfl, rfl⟩ | ⟨hne, fs0, h0, rfl⟩
    · exact hwf
    · rw [hg.wf]; exact I.wf t' fs0 h0
  · intro t' fs1 h
    rcases hget t' fs1 h with ⟨rfl, rfl⟩ | ⟨hne, fs0, h0, rfl⟩
    · exact hcs
    · rw [hg.cs, hoth t' hne]; exact I.cs t' fs0 h0
  · intro t' h
    rw [hth, List.length_set, List.length_map]
    by_cases he : t' = t
    · subst he; exact hlt
    · exact I.own t' ((hoth t' he).1 h)
  · intro t' fs1 h hk
    rcases hget t' fs1 h with ⟨rfl, rfl⟩ | ⟨hne, fs0, h0, rfl⟩
    · exact htk hk
    · rw [hg.tk] at hk
      have ho := (I.cs t' fs0 h0).1 (tk_cs hk)
      rcases hdata with ⟨h1, h2⟩ | h1
      · rw [h1, h2]; exact I.take t' fs0 h0 hk
      · rw [ho] at h1; cases h1; exact absurd rfl hne
  · intro t' fs1 h hk
    rcases hget t' fs1 h with ⟨rfl, rfl⟩ | ⟨hne, fs0, h0, rfl⟩
    · exact .inl (hasl hk)
    · rcases hsl with ⟨h1, h2, h3⟩ | h1 | h1 | ⟨h1, h2, h3⟩
      · rcases I.sleep t' fs0 h0 (hg.asl fs0 hk) with h4 | ⟨t2, fs2, h4, h5⟩
        · rw [h1, h2]; exact .inl h4
        · by_cases he : t2 = t
          · subst he; rw [ht] at h4; cases h4; rw [h3] at h5; cases h5
          · exact .inr ⟨t2, g fs2, hother t2 fs2 he h4, by rw [hg.nt]; exact h5⟩
      · exact .inr ⟨t, fs', hself, h1⟩
      · rw [h1] at hk; cases hk
      · rcases I.sleep t' fs0 h0 (hg.asl fs0 hk) with h4 | ⟨t2, fs2, h4, h5⟩
        · exact absurd h4 h3
        · have := (I.cs t2 fs2 h4).1 (nt_cs h5)
          rw [h1] at this; cases this
          rw [ht] at h4; cases h4; rw [h2] at h5; cases h5
  · exact hq
  · have h1 : hands callable s' = (s.threads.set t fs').flatMap (hand callable) := by
      unfold hands
      have : ∀ (l : List (List (Frame α))) (t : Nat), ((l.map g).set t fs').flatMap (hand callable) = (l.set t fs').flatMap (hand callable) := by
        intro l
        induction l with
        | nil => intro t; simp
        | cons x l ih =>
          intro t
          have hm : (l.map g).flatMap (hand callable) = l.flatMap (hand callable) := by
            rw [List.flatMap_map]; congr 1; funext fs; exact hg.hand fs
          cases t with
          | zero => simp only [List.map_cons, List.set_cons_zero, List.flatMap_cons, hm]
          | succ t => simp only [List.map_cons, List.set_cons_succ, List.flatMap_cons, ih, hg.hand]
      rw [hth, this]
    have h2 := flatMap_set (hand callable) s.threads t fs fs' ht
    have h3 := I.once
    rw [hx]
    have h4 : (hand callable fs ++ (begins s'.log ++ hands callable s')).Perm (hand callable fs ++ (s.taken.filter callable ++ extra)) := by
      rw [h1]
      calc (hand callable fs ++ (begins s'.log ++ (s.threads.set t fs').flatMap (hand callable))).Perm
            (begins s'.log ++ (hand callable fs ++ (s.threads.set t fs').flatMap (hand callable))) := by
              rw [← List.append_assoc, ← List.append_assoc]; exact List.Perm.append_right _ List.perm_append_comm
        _ |>.Perm (begins s'.log ++ (hand callable fs' ++ s.threads.flatMap (hand callable))) := List.Perm.append_left _ h2
        _ |>.Perm ((begins s.log ++ hand callable fs ++ extra) ++ s.threads.flatMap (hand callable)) := by
              rw [← List.append_assoc]; exact List.Perm.append_right _ hp
        _ |>.Perm (hand callable fs ++ ((begins s.log ++ s.threads.flatMap (hand callable)) ++ extra)) := by
              rw [List.append_assoc, List.append_assoc, List.append_assoc]
              refine (List.perm_append_comm_assoc _ _ _).trans (List.Perm.append_left _ (List.Perm.append_left _ List.perm_append_comm))
        _ |>.Perm (hand callable fs ++ (s.taken.filter callable ++ extra)) := List.Perm.append_left _ (List.Perm.append_right _ h3)
    exact (List.perm_append_left_iff _).1 h4

theorem tail_calm (callable : α → Bool) {fs : List (Frame α)} (h : wfTail fs = true) : csTop fs = false ∧ nt fs = false ∧ tk fs = false ∧ asl fs = false ∧ hand callable fs = [] := by
  match fs, h with
  | [], _ => exact ⟨rfl, rfl, rfl, rfl, rfl⟩
  | .body _ :: rest, h => exact ⟨rfl, rfl, rfl, rfl, rfl⟩
  | .run :: rest, h => exact ⟨rfl, rfl, rfl, rfl, rfl⟩

theorem run_tail {rest : List (Frame α)} (h : wfTail (.run :: rest) = true) : wfTail rest = true ∧ wf rest = true := by
  match rest, h with
  | [], _ => exact ⟨rfl, rfl⟩
  | .body _ :: _, h => exact ⟨h, by simpa [wf, wfTail, headRun, plain] using h⟩

theorem finish_spec (callable : α → Bool) (s : St α) (t : Nat) (b : Bool) {rest : List (Frame α)} (h : wfTail rest = true) :
    ∃ fs' log', finish s t b rest = { s with threads := s.threads.set t fs', log := log' } ∧ wf fs' = true ∧ csTop fs' = false ∧ nt fs' = false ∧ tk fs' = false ∧ asl fs' = false ∧
      hand callable fs' = [] ∧ posts log' = posts s.log ∧ begins log' = begins s.log := by
  unfold finish
  split
  · rename_i rest'
    obtain ⟨h1, h2⟩ := run_tail h
    split
    · exact ⟨_, _, rfl, by simp [wf, headRun, plain, h], rfl, rfl, rfl, rfl, rfl, by simp [St.note, posts], by simp [St.note, begins]⟩
    · obtain ⟨c1, c2, c3, c4, c5⟩ := tail_calm callable h1
      exact ⟨_, _, rfl, h2, c1, c2, c3, c4, c5, by simp [St.note, posts], by simp [St.note, begins]⟩
  · rename_i hr
    obtain ⟨c1, c2, c3, c4, c5⟩ := tail_calm callable h
    refine ⟨_, _, rfl, ?_, c1, c2, c3, c4, c5, by simp [St.note, posts], by simp [St.note, begins]⟩
    rcases wf_tail h with h | ⟨r, rfl, _⟩
    · exact h.2
    · exact absurd rfl (hr r)

theorem inv_finish {callable : α → Bool} {s s0 : St α} (I : Inv callable s) {t : Nat} {fr : Frame α} {rest : List (Frame α)} (ht : s.threads[t]? = some (fr :: rest)) (b : Bool)
    (h0 : s0.threads = s.threads) (h1 : s0.running = s.running) (h2 : s0.tasks = s.tasks) (h3 : s0.log = s.log) (h4 : s0.taken = s.taken)
    (ho : s0.owner ≠ some t) (hoth : ∀ t', t' ≠ t → (s0.owner = some t' ↔ s.owner = some t')) (hn : nt (fr :: rest) = false) (hh : hand callable (fr :: rest) = [])
    (hw : wfTail rest = true) : Inv callable (finish s0 t b rest) := by
  obtain ⟨fs', log', he, a1, a2, a3, a4, a5, a6, a7, a8⟩ := finish_spec callable s0 t b hw
  rw [he]
  refine inv_upd I ht id (neutral_id callable) (by simp [h0]) a1 (by rw [a2]; simp [ho]) hoth (.inl ⟨h1, h2⟩) (by rw [a4]; simp) (by rw [a5]; simp) (.inl ⟨h1, h2, hn⟩)
    ?_ [] (by simp [h4]) ?_
  · show posts log' = s0.taken ++ s0.tasks
    rw [a7, h3, h4, h2]; exact I.queue
  · rw [a6, hh]
    show (begins log' ++ []).Perm _
    rw [a8, h3]; simp

theorem wf_rest {fr : Frame α} {rest : List (Frame α)} (h : wf (fr :: rest) = true) : wfTail rest = true := by
  simp only [wf, Bool.and_eq_true] at h; exact h.1.2

theorem inv_go {callable : α → Bool} {s s' : St α} (I : Inv callable s) {t : Nat} {fr : Frame α} {rest : List (Frame α)} (ht : s.threads[t]? = some (fr :: rest))
    (h : go callable s t fr rest = some s') : Inv callable s' := by
  have hwt := I.wf t _ ht
  have hw : wfTail rest = true := wf_rest hwt
  have hc := I.cs t _ ht
  have hrun : plain fr = true → headRun rest = false := by
    intro hp
    simp only [wf, hp, Bool.and_eq_true] at hwt
    simpa using hwt.2
  have hwf' : ∀ fr' : Frame α, headRun [fr'] = false → (plain fr' = true → plain fr = true) → wf (fr' :: rest) = true := by
    intro fr' h1 h2
    simp only [wf, h1, hw, Bool.not_false, Bool.and_true, Bool.true_and, Bool.or_eq_true, Bool.not_eq_true']
    cases hp : plain fr' with
    | false => exact .inl rfl
    | true => exact .inr (hrun (h2 hp))
  have hset : ∀ (s0 : St α) fs', s0.threads = s.threads → (s0.set t fs').threads = (s.threads.map id).set t fs' := by
    intro s0 fs' h; simp [St.set, h]
  have hq := I.queue
  obtain ⟨c1, c2, c3, c4, c5⟩ := tail_calm callable hw
  have hwr : plain fr = true → wf rest = true := by
    intro hp
    rcases wf_tail hw with h | ⟨r, h, _⟩
    · exact h.2
    · have := hrun hp; rw [h] at this; cases this
  have hoth : s.owner = some t → ∀ t', t' ≠ t → ((none : Option Nat) = some t' ↔ s.owner = some t') := by
    intro ho t' hne
    simp [ho]; exact fun e => hne e.symm
  cases fr with
  | lock c =>
    simp only [go] at h
    split at h
    · rename_i ho
      cases h
      have hcs : csTop (locked c :: rest) = true := by cases c <;> rfl
      have h1 : nt (locked c :: rest) = false := by cases c <;> rfl
      have h2 : tk (locked c :: rest) = false := by cases c <;> rfl
      have h3 : asl (locked c :: rest) = false := by cases c <;> rfl
      have h4 : hand callable (locked c :: rest) = [] := by cases c <;> rfl
      exact inv_upd I ht id (neutral_id callable) (hset _ _ rfl) (hwf' _ (by cases c <;> rfl) (by cases c <;> simp [plain, locked])) (by simp [hcs, St.set])
        (by intro t' hne; simp [St.set, ho]; exact fun e => hne e.symm)
        (.inl ⟨rfl, rfl⟩) (by simp [h2]) (by simp [h3]) (.inl ⟨rfl, rfl, rfl⟩) hq [] (by simp [St.set, St.touch]) (by rw [h4]; simp [St.set, St.touch, hand])
    · cases h
  | stopSet d =>
    simp only [go] at h
    cases h
    have ho : s.owner = some t := hc.1 rfl
    exact inv_upd I ht id (neutral_id callable) (hset _ _ rfl) (hwf' _ rfl (fun _ => rfl)) (by simp [csTop, cs, St.set, St.touch, ho]) (by intro t' hne; simp [St.set, St.touch])
      (.inr ho) (by simp [tk]) (by simp [asl]) (.inr (.inl rfl)) hq [] (by simp [St.set, St.touch]) (by simp [St.set, St.touch, hand])
  | stopNotify d =>
    simp only [go] at h
    cases h
    have ho : s.owner = some t := hc.1 rfl
    exact inv_upd I ht notify (neutral_notify callable) rfl (hwf' _ rfl (fun _ => rfl)) (by simp [csTop, cs, St.set, St.touch, ho]) (by intro t' hne; simp [St.set, St.touch])
      (.inr ho) (by simp [tk]) (by simp [asl]) (.inr (.inr (.inl notify_awake))) hq [] (by simp [St.set, St.touch]) (by simp [St.set, St.touch, hand])
  | postNotify =>
    simp only [go] at h
    cases h
    have ho : s.owner = some t := hc.1 rfl
    exact inv_upd I ht notify (neutral_notify callable) rfl (hwf' _ rfl (fun _ => rfl)) (by simp [csTop, cs, St.set, St.touch, ho]) (by intro t' hne; simp [St.set, St.touch])
      (.inr ho) (by simp [tk]) (by simp [asl]) (.inr (.inr (.inl notify_awake))) hq [] (by simp [St.set, St.touch]) (by simp [St.set, St.touch, hand])
  | stopUnlock d =>
    simp only [go] at h
    cases h
    have ho : s.owner = some t := hc.1 rfl
    exact inv_upd I ht id (neutral_id callable) (hset _ _ rfl) (hwr rfl) (by simp [c1, St.set, St.note, St.touch]) (hoth ho)
      (.inr ho) (by simp [c3]) (by simp [c4]) (.inl ⟨rfl, rfl, rfl⟩) (by simpa [St.set, St.note, St.touch, posts] using hq) [] (by simp [St.set, St.note, St.touch])
      (by rw [c5]; simp [St.set, St.note, St.touch, hand, begins])
  | stoppedRead =>
    simp only [go] at h
    cases h
    have ho : s.owner = some t := hc.1 rfl
    exact inv_upd I ht id (neutral_id callable) (hset _ _ rfl) (hwf' _ rfl (fun _ => rfl)) (by simp [csTop, cs, St.set, St.touch, ho]) (by intro t' hne; simp [St.set, St.touch])
      (.inr ho) (by simp [tk]) (by simp [asl]) (.inl ⟨rfl, rfl, rfl⟩) hq [] (by simp [St.set, St.touch]) (by simp [St.set, St.touch, hand])
  | stoppedUnlock b =>
    simp only [go] at h
    cases h
    have ho : s.owner = some t := hc.1 rfl
    exact inv_upd I ht id (neutral_id callable) (hset _ _ rfl) (hwr rfl) (by simp [c1, St.set, St.note, St.touch]) (hoth ho)
      (.inr ho) (by simp [c3]) (by simp [c4]) (.inl ⟨rfl, rfl, rfl⟩) (by simpa [St.set, St.note, St.touch, posts] using hq) [] (by simp [St.set, St.note, St.touch])
      (by rw [c5]; simp [St.set, St.note, St.touch, hand, begins])
  | postPush f =>
    simp only [go] at h
    cases h
    have ho : s.owner = some t := hc.1 rfl
    exact inv_upd I ht id (neutral_id callable) (hset _ _ rfl) (hwf' _ rfl (fun _ => rfl)) (by simp [csTop, cs, St.set, St.note, St.touch, ho]) (by intro t' hne; simp [St.set, St.note, St.touch])
      (.inr ho) (by simp [tk]) (by simp [asl]) (.inr (.inl rfl)) (by
        have : posts (s.log ++ [Obs.posted f]) = posts s.log ++ [f] := by simp [posts]
        show posts (s.log ++ [Obs.posted f]) = s.taken ++ (s.tasks ++ [f])
        rw [this, hq, List.append_assoc]) [] (by simp [St.set, St.note, St.touch])
      (by simp [St.set, St.note, St.touch, hand, begins])
  | postUnlock =>
    simp only [go] at h
    cases h
    have ho : s.owner = some t := hc.1 rfl
    exact inv_upd I ht id (neutral_id callable) (hset _ _ rfl) (hwr rfl) (by simp [c1, St.set, St.touch]) (hoth ho)
      (.inr ho) (by simp [c3]) (by simp [c4]) (.inl ⟨rfl, rfl, rfl⟩) hq [] (by simp [St.set, St.touch]) (by rw [c5]; simp [St.set, St.touch, hand])
  | execTest =>
    have ho : s.owner = some t := hc.1 rfl
    simp only [go] at h
    split at h
    · rename_i hb
      cases h
      exact inv_upd I ht id (neutral_id callable) (hset _ _ rfl) (hwf' _ rfl (by simp [plain])) (by simp [csTop, cs, St.set, St.touch, ho]) (by intro t' hne; simp [St.set, St.touch])
        (.inr ho) (by intro _; simpa [St.set, St.touch] using hb) (by simp [asl]) (.inl ⟨rfl, rfl, rfl⟩) hq [] (by simp [St.set, St.touch]) (by simp [St.set, St.touch, hand])
    · rename_i hb
      cases h
      exact inv_upd I ht id (neutral_id callable) (hset _ _ rfl) (hwf' _ rfl (by simp [plain])) (by simp [csTop, cs, St.set, St.touch]) (hoth ho)
        (.inr ho) (by simp [tk]) (by intro _; simpa [St.set, St.touch] using hb) (.inl ⟨rfl, rfl, rfl⟩) hq [] (by simp [St.set, St.touch]) (by simp [St.set, St.touch, hand])
  | asleep => cases h
  | woken =>
    simp only [go] at h
    split at h
    · rename_i ho
      cases h
      exact inv_upd I ht id (neutral_id callable) (hset _ _ rfl) (hwf' _ rfl (by simp [plain])) (by simp [csTop, cs, St.set])
        (by intro t' hne; simp [St.set, ho]; exact fun e => hne e.symm)
        (.inl ⟨rfl, rfl⟩) (by simp [tk]) (by simp [asl]) (.inl ⟨rfl, rfl, rfl⟩) hq [] (by simp [St.set, St.touch]) (by simp [St.set, St.touch, hand])
    · cases h
  | execTake =>
    have ho : s.owner = some t := hc.1 rfl
    simp only [go] at h
    split at h
    · rename_i hr
      split at h
      · rename_i he
        rcases I.take t _ ht rfl with h1 | h1
        · rw [hr] at h1; cases h1
        · exact absurd he h1
      · rename_i f fs he
        cases h
        exact inv_upd I ht id (neutral_id callable) (hset _ _ rfl) (hwf' _ rfl (by simp [plain])) (by simp [csTop, cs, St.set, St.touch, ho]) (by intro t' hne; simp [St.set, St.touch])
          (.inr ho) (by simp [tk]) (by simp [asl]) (.inr (.inr (.inr ⟨ho, rfl, by simp [he]⟩)))
          (by show posts s.log = (s.taken ++ [f]) ++ fs; rw [hq, he]; simp) ([f].filter callable) (by simp [St.set, St.touch])
          (by simp only [St.set, St.touch, hand, List.append_nil]; simp [List.filter_cons])
    · rename_i hr
      cases h
      exact inv_upd I ht id (neutral_id callable) (hset _ _ rfl) (hwf' _ rfl (by simp [plain])) (by simp [csTop, cs, St.set, St.touch, ho]) (by intro t' hne; simp [St.set, St.touch])
        (.inr ho) (by simp [tk]) (by simp [asl]) (.inl ⟨rfl, rfl, rfl⟩) hq [] (by simp [St.set, St.touch]) (by simp [St.set, St.touch, hand])
  | pollTake =>
    have ho : s.owner = some t := hc.1 rfl
    simp only [go] at h
    split at h
    · rename_i hr
      split at h
      · cases h
        exact inv_upd I ht id (neutral_id callable) (hset _ _ rfl) (hwf' _ rfl (by simp [plain])) (by simp [csTop, cs, St.set, St.touch, ho]) (by intro t' hne; simp [St.set, St.touch])
          (.inr ho) (by simp [tk]) (by simp [asl]) (.inl ⟨rfl, rfl, rfl⟩) hq [] (by simp [St.set, St.touch]) (by simp [St.set, St.touch, hand])
      · rename_i f fs he
        cases h
        exact inv_upd I ht id (neutral_id callable) (hset _ _ rfl) (hwf' _ rfl (by simp [plain])) (by simp [csTop, cs, St.set, St.touch, ho]) (by intro t' hne; simp [St.set, St.touch])
          (.inr ho) (by simp [tk]) (by simp [asl]) (.inr (.inr (.inr ⟨ho, rfl, by simp [he]⟩)))
          (by show posts s.log = (s.taken ++ [f]) ++ fs; rw [hq, he]; simp) ([f].filter callable) (by simp [St.set, St.touch])
          (by simp only [St.set, St.touch, hand, List.append_nil]; simp [List.filter_cons])
    · rename_i hr
      cases h
      exact inv_upd I ht id (neutral_id callable) (hset _ _ rfl) (hwf' _ rfl (by simp [plain])) (by simp [csTop, cs, St.set, St.touch, ho]) (by intro t' hne; simp [St.set, St.touch])
        (.inr ho) (by simp [tk]) (by simp [asl]) (.inl ⟨rfl, rfl, rfl⟩) hq [] (by simp [St.set, St.touch]) (by simp [St.set, St.touch, hand])
  | unlockFalse =>
    have ho : s.owner = some t := hc.1 rfl
    simp only [go] at h
    cases h
    exact inv_finish (s0 := { s.touch with owner := none }) I ht false rfl rfl rfl rfl rfl (by simp) (hoth ho) rfl rfl hw
  | unlockTask f =>
    have ho : s.owner = some t := hc.1 rfl
    simp only [go] at h
    cases h
    exact inv_upd I ht id (neutral_id callable) (hset _ _ rfl) (hwf' _ rfl (by simp [plain])) (by simp [csTop, cs, St.set, St.touch]) (hoth ho)
      (.inr ho) (by simp [tk]) (by simp [asl]) (.inl ⟨rfl, rfl, rfl⟩) hq [] (by simp [St.set, St.touch]) (by simp [St.set, St.touch, hand])
  | start f =>
    have ho : s.owner ≠ some t := by intro e; exact absurd (hc.2 e) (by simp [csTop, cs])
    simp only [go] at h
    split at h
    · rename_i hf
      cases h
      exact inv_upd I ht id (neutral_id callable) (hset _ _ rfl) (hwf' _ rfl (by simp [plain])) (by simp [csTop, cs, St.set, St.note, ho]) (by intro t' hne; simp [St.set, St.note])
        (.inl ⟨rfl, rfl⟩) (by simp [tk]) (by simp [asl]) (.inl ⟨rfl, rfl, rfl⟩) (by simpa [St.set, St.note, posts] using hq) [] (by simp [St.set, St.note])
        (by simp [St.set, St.note, hand, begins, hf])
    · rename_i hf
      cases h
      exact inv_finish I ht true rfl rfl rfl rfl rfl ho (fun _ _ => Iff.rfl) rfl (by simp [hand, hf]) hw
  | body f => cases h
  | run => cases h

theorem inv_step {callable : α → Bool} {s s' : St α} (I : Inv callable s) {t : Nat} {m : Move α} (h : step callable s t m = some s') : Inv callable s' := by
  unfold step at h
  split at h
  · cases h
  · rename_i fs ht
    have hset : ∀ fs', (s.set t fs').threads = (s.threads.map id).set t fs' := by intro fs'; simp [St.set]
    have hc := I.cs t _ ht
    split at h
    · rename_i c
      cases h
      have ho : s.owner ≠ some t := by intro e; exact absurd (hc.2 e) (by simp [csTop])
      refine inv_upd I ht id (neutral_id callable) (hset _) ?_ ?_ (fun _ _ => Iff.rfl) (.inl ⟨rfl, rfl⟩) ?_ ?_ (.inl ⟨rfl, rfl, rfl⟩) I.queue [] (by simp [St.set]) ?_
      · cases c <;> rfl
      · cases c <;> simp [enter, csTop, cs, St.set, ho]
      · cases c <;> simp [enter, tk]
      · cases c <;> simp [enter, asl]
      · cases c <;> simp [enter, hand, St.set]
    · rename_i c f rest
      cases h
      have hw : wfTail rest = true := wf_rest (I.wf t _ ht)
      have ho : s.owner ≠ some t := by intro e; exact absurd (hc.2 e) (by simp [csTop, cs])
      refine inv_upd I ht id (neutral_id callable) (hset _) ?_ ?_ (fun _ _ => Iff.rfl) (.inl ⟨rfl, rfl⟩) ?_ ?_ (.inl ⟨rfl, rfl, rfl⟩) I.queue [] (by simp [St.set]) ?_
      · cases c <;> simp [enter, wf, headRun, plain, wfTail, hw]
      · cases c <;> simp [enter, csTop, cs, St.set, ho]
      · cases c <;> simp [enter, tk]
      · cases c <;> simp [enter, asl]
      · cases c <;> simp [enter, hand, St.set]
    · exact inv_go I ht h
    · rename_i rest
      cases h
      have ho : s.owner ≠ some t := by intro e; exact absurd (hc.2 e) (by simp [csTop, cs])
      have hw : wfTail rest = true := wf_rest (I.wf t _ ht)
      exact inv_upd I ht id (neutral_id callable) (hset _) (by simp [wf, headRun, plain, hw]) (by simp [csTop, cs, St.set, ho]) (fun _ _ => Iff.rfl) (.inl ⟨rfl, rfl⟩) (by simp [tk]) (by simp [asl])
        (.inl ⟨rfl, rfl, rfl⟩) I.queue [] (by simp [St.set]) (by simp [hand, St.set])
    · rename_i f rest
      cases h
      have ho : s.owner ≠ some t := by intro e; exact absurd (hc.2 e) (by simp [csTop, cs])
      exact inv_finish I ht true rfl rfl rfl rfl rfl ho (fun _ _ => Iff.rfl) rfl rfl (wf_rest (I.wf t _ ht))
    · rename_i f rest
      cases h
      have ho : s.owner ≠ some t := by intro e; exact absurd (hc.2 e) (by simp [csTop, cs])
      have hw : wfTail rest = true := wf_rest (I.wf t _ ht)
      have hu : wfTail (unwind rest) = true ∧ wf (unwind rest) = true := by
        unfold unwind
        split
        · exact run_tail hw
        · rename_i hn
          rcases wf_tail hw with h | ⟨r, rfl, _⟩
          · exact ⟨hw, h.2⟩
          · exact absurd rfl (hn r)
      obtain ⟨c1, c2, c3, c4, c5⟩ := tail_calm callable hu.1
      exact inv_upd I ht id (neutral_id callable) (hset _) hu.2 (by simp [c1, St.set, ho]) (fun _ _ => Iff.rfl) (.inl ⟨rfl, rfl⟩) (by simp [c3]) (by simp [c4])
        (.inl ⟨rfl, rfl, rfl⟩) I.queue [] (by simp [St.set]) (by rw [c5]; simp [hand, St.set])
    · cases h

theorem inv_init (callable : α → Bool) (n : Nat) : Inv callable (St.init n) := by
  have hget : ∀ (t : Nat) (fs : List (Frame α)), (St.init (α := α) n).threads[t]? = some fs → fs = [] := by
    intro t fs h
    simp only [St.init, List.getElem?_replicate] at h
    split at h <;> cases h
    rfl
  constructor
  · intro t fs h; rw [hget t fs h]; rfl
  · intro t fs h; rw [hget t fs h]; simp [csTop, St.init]
  · intro t h; cases h
  · intro t fs h; rw [hget t fs h]; simp [tk]
  · intro t fs h; rw [hget t fs h]; simp [asl]
  · rfl
  · have : hands callable (St.init n) = [] := by
      simp [hands, St.init, List.flatMap_eq_nil_iff, List.mem_replicate, hand]
    rw [this]; simp [begins, St.init]

theorem inv_steps {callable : α → Bool} {s s' : St α} (I : Inv callable s) {ms : List (Nat × Move α)} (h : steps callable s ms = some s') : Inv callable s' := by
  induction ms generalizing s with
  | nil => cases h; exact I
  | cons m ms ih =>
    obtain ⟨t, m⟩ := m
    simp only [steps, Option.bind_eq_some_iff] at h
    obtain ⟨s1, h1, h2⟩ := h
    exact ih (inv_step I h1) h2

end Verif.Loop
