import Verif.Model.Writes
import Verif.Props.Sessions
import Verif.Props.Telnet

set_option linter.unusedSimpArgs false

/-!
# Property C96: clients that do not read
-/

namespace Verif.Props
open Spec Sessions Writes

variable {σ τ : Type}

theorem run_writes_append {A : Nat → App σ τ} {h h1 h2 : Hub σ τ} {a b : List Writes.Ev} (x : Writes.Run A h a h1) (y : Writes.Run A h1 b h2) : Writes.Run A h (a ++ b) h2 := by
  induction x with
  | nil => exact y
  | cons s _ ih => exact .cons s (ih y)

theorem encode_cat (a b : Str) : Telnet.encode (a ++ b) = Telnet.encode a ++ Telnet.encode b := by
  induction a with
  | nil => rfl
  | cons c a ih => simp only [List.cons_append, Telnet.encode]; split <;> simp [ih]

theorem textOf_encoded (ws : List (Nat × Str)) (j : Nat) : textOf (encoded ws) j = Telnet.encode (textOf ws j) := by
  induction ws with
  | nil => rfl
  | cons w ws ih =>
    obtain ⟨i, t⟩ := w
    have e1 : textOf ((i, t) :: ws) j = (if i = j then t else []) ++ textOf ws j := by
      simp only [textOf, List.filter_cons]
      by_cases hij : i = j <;> simp [hij]
    cases t with
    | nil =>
      have e2 : encoded ((i, []) :: ws) = encoded ws := by simp [encoded]
      rw [e1, e2, ih]; split <;> rfl
    | cons c t =>
      have e2 : encoded ((i, c :: t) :: ws) = (i, Telnet.encode (c :: t)) :: encoded ws := by simp [encoded]
      have e3 : textOf ((i, Telnet.encode (c :: t)) :: encoded ws) j = (if i = j then Telnet.encode (c :: t) else []) ++ textOf (encoded ws) j := by
        simp only [textOf, List.filter_cons]
        by_cases hij : i = j <;> simp [hij]
      rw [e1, e2, e3, ih, encode_cat]
      split <;> rfl

/-- What has been sent and what is to be sent yet are what the session has written. -/
def Sound (A : Nat → App σ τ) (s0 : State σ τ) (h : Hub σ τ) : Prop :=
  (∀ j, h.s.live j = true → h.gone j = false → h.sent j ++ textOf h.writes j = Telnet.encode (h.s.own j).out) ∧ Sessions.run A s0 h.done = .ok h.s ∧ (∀ op ∈ h.queue, isLife op = false) ∧ h.s.live = s0.live

theorem live_same {A : Nat → App σ τ} {S S' : State σ τ} {op : Sessions.Op} (ho : isLife op = false) (h : Sessions.step A S op = .ok S') : S'.live = S.live := by
  have gen : (if S.live op.who then
      match work (A op.who) op (S.view op.who) with
      | .ok w => Except.ok (S.after op.who w)
      | .error f => .error f
    else .ok S) = .ok S' → S'.live = S.live := by
    intro h
    split at h
    · split at h <;> cases h; rfl
    · cases h; rfl
  cases op with
  | create i n t => cases ho
  | destroy i => cases ho
  | feed i fuel line => exact gen h
  | prompt i => exact gen h
  | enter i => exact gen h
  | exit i => exact gen h
  | up i s => exact gen h
  | down i => exact gen h
  | act i a => exact gen h

theorem sessions_run_snoc (A : Nat → App σ τ) (ops : List Sessions.Op) (op : Sessions.Op) : ∀ (s s1 s2 : State σ τ), Sessions.run A s ops = .ok s1 → Sessions.step A s1 op = .ok s2 →
    Sessions.run A s (ops ++ [op]) = .ok s2 := by
  induction ops with
  | nil => intro s s1 s2 h1 h2; cases h1; simp [Sessions.run, h2]
  | cons o ops ih =>
    intro s s1 s2 h1 h2
    simp only [Sessions.run, List.cons_append] at h1 ⊢
    split at h1
    · exact ih _ _ _ h1 h2
    · cases h1

theorem sound_step {A : Nat → App σ τ} {s0 : State σ τ} {h h' : Hub σ τ} {e : Writes.Ev} (st : Writes.Step A h e h') (hs : Sound A s0 h) : Sound A s0 h' := by
  obtain ⟨h1, h2, h3, h4⟩ := hs
  cases st with
  | post op ho =>
    refine ⟨h1, h2, ?_, h4⟩
    intro o hop
    rcases List.mem_append.1 hop with hop | hop
    · exact h3 o hop
    · cases List.mem_singleton.1 hop; exact ho
  | exec op rest s' texts hw hq hst hout hlv =>
    have hl := live_same (h3 op (by rw [hq]; simp)) hst
    refine ⟨?_, sessions_run_snoc A _ _ _ _ _ h2 hst, fun o ho => h3 o (by rw [hq]; simp [show o ∈ rest from ho]), hl.trans h4⟩
    intro j hj hg
    simp only at hj hg ⊢
    rw [hl] at hj
    have := h1 j hj hg
    rw [hw] at this
    simp only [textOf, List.filter_nil, List.flatMap_nil, List.append_nil] at this
    rw [this, textOf_encoded, hout j hj, encode_cat]
  | take j b rest k hw hg hk hkb hkr =>
    refine ⟨?_, h2, h3, h4⟩
    intro i hl hi
    have := h1 i hl hi
    rw [hw] at this
    simp only
    by_cases hij : j = i
    · subst hij
      simp only [textOf, List.filter_cons, beq_self_eq_true, if_true, List.flatMap_cons] at this
      rw [← this]
      by_cases hkl : k = b.length
      · simp [textOf, hkl]
      · simp [textOf, hkl]; rw [← List.append_assoc (List.take k b), List.take_append_drop]
    · have hij' : ¬ (i = j) := fun e => hij e.symm
      simp only [hij', if_false]
      rw [← this]
      split <;> simp [textOf, hij]
  | fail j b rest hw hg =>
    refine ⟨?_, h2, h3, h4⟩
    intro i hl hi
    have := h1 i hl hi
    rw [hw] at this
    have hij : j ≠ i := by rintro rfl; simp only at hi; rw [hg] at hi; cases hi
    simpa [textOf, hij] using this
  | read j k => exact ⟨h1, h2, h3, h4⟩
  | lose j =>
    refine ⟨?_, h2, h3, h4⟩
    intro i hl hi
    simp only at hi
    split at hi
    · cases hi
    · exact h1 i hl hi

theorem sound_run {A : Nat → App σ τ} {s0 : State σ τ} {h h' : Hub σ τ} {es : List Writes.Ev} (r : Writes.Run A h es h') (hs : Sound A s0 h) : Sound A s0 h' := by
  induction r with
  | nil => exact hs
  | cons st _ ih => exact ih (sound_step st hs)

/-- **C96** Whatever the clients do, tasks are executed one after the other, with the effects they have on the sessions alone, and over each connection that does not break a prefix of the session's output is sent; all
    of it when the scheduler's thread is free. -/
theorem C96_output (A : Nat → App σ τ) (s0 : State σ τ) (room : Nat → Nat) (es : List Writes.Ev) (h : Hub σ τ) (r : Writes.Run A (Hub.init s0 room) es h) :
    Sessions.run A s0 h.done = .ok h.s ∧ ∀ j, s0.live j = true → h.gone j = false → ∃ late, h.sent j ++ late = Telnet.encode (h.s.own j).out ∧ (h.writes = [] → late = []) := by
  obtain ⟨h1, h2, _, h4⟩ := sound_run (s0 := s0) r ⟨(fun j _ _ => by simp [Hub.init, textOf]), rfl, (fun _ h => by cases h), rfl⟩
  exact ⟨h2, fun j hl hj => ⟨_, h1 j (by rw [h4]; exact hl) hj, fun hw => by simp [hw, textOf]⟩⟩

/-- Tasks are executed in the order in which they are posted. -/
theorem posted_order {A : Nat → App σ τ} {h h' : Hub σ τ} {es : List Writes.Ev} (r : Writes.Run A h es h') :
    h'.done ++ h'.queue = h.done ++ h.queue ++ es.filterMap (fun e => match e with | .post op => some op | _ => none) := by
  induction r with
  | nil => simp
  | cons st _ ih =>
    rw [ih]
    cases st with
    | post op _ => simp
    | exec op rest s' texts hw hq hst hout hlv => simp [hq]
    | take _ _ _ _ _ _ _ _ _ => simp
    | fail _ _ _ _ _ => simp
    | read _ _ => simp
    | lose _ => simp

theorem posted_queue {A : Nat → App σ τ} {h h' : Hub σ τ} {es : List Writes.Ev} (r : Writes.Run A h es h') (hd : h'.done = h.done) :
    h'.queue = h.queue ++ es.filterMap (fun e => match e with | .post op => some op | _ => none) := by
  have := posted_order r
  rw [hd, List.append_assoc] at this
  exact List.append_cancel_left this

/-- **C96** … in the order in which they are posted. -/
theorem C96_order (A : Nat → App σ τ) (s0 : State σ τ) (room : Nat → Nat) (es : List Writes.Ev) (h : Hub σ τ) (r : Writes.Run A (Hub.init s0 room) es h) :
    h.done ++ h.queue = es.filterMap (fun e => match e with | .post op => some op | _ => none) := by
  simpa [Hub.init] using posted_order r

/-- Without the client's help: it neither reads nor goes away. -/
def Idle (j : Nat) (e : Writes.Ev) : Prop := (∀ k, e ≠ .read j k) ∧ e ≠ .lose j

/-- **C96** Refuted: while a client does not read and its connection does not break, a task that has written more for it than the connection takes is never finished, and no other task is executed, for no client: the
    sessions remain as they are. -/
theorem C96_stalled_refuted (A : Nat → App σ τ) (j : Nat) (h h' : Hub σ τ) (es : List Writes.Ev) (r : Writes.Run A h es h') (hi : ∀ e ∈ es, Idle j e) (hg : h.gone j = false)
    (hb : h.room j < (textOf h.writes j).length) : h'.s = h.s ∧ h'.done = h.done ∧ h'.writes ≠ [] := by
  induction r with
  | nil => exact ⟨rfl, rfl, by intro e; rw [e] at hb; simp [textOf] at hb⟩
  | cons st _ ih =>
    rename_i h0 h1 h2 e es _
    have hi' : ∀ e ∈ es, Idle j e := fun e he => hi e (by simp [he])
    have hi0 := hi e (by simp)
    cases st with
    | post op _ => exact ih hi' hg hb
    | exec op rest s' texts hw hq hst hout hlv => rw [hw] at hb; simp [textOf] at hb
    | take i b rest k hw hgi hk hkb hkr =>
      refine ih hi' hg ?_
      rw [hw] at hb
      simp only
      by_cases hij : i = j
      · subst hij
        simp only [textOf, List.filter_cons, beq_self_eq_true, if_true, List.flatMap_cons, List.length_append] at hb
        rw [if_pos rfl]
        split
        · rename_i hkl; simp only [textOf]; omega
        · simp only [textOf, List.filter_cons, beq_self_eq_true, if_true, List.flatMap_cons, List.length_append, List.length_drop]; omega
      · have hij' : ¬ (j = i) := fun e => hij e.symm
        simp only [textOf, List.filter_cons, beq_iff_eq, hij, if_false] at hb
        simp only [hij', if_false]
        split
        · exact hb
        · simpa [textOf, hij] using hb
    | fail i b rest hw hgi =>
      refine ih hi' hg ?_
      have hij : i ≠ j := by rintro rfl; rw [hg] at hgi; cases hgi
      rw [hw] at hb
      simpa [textOf, hij] using hb
    | read i k =>
      have hij : ¬ (j = i) := by rintro rfl; exact hi0.1 k rfl
      refine ih hi' hg ?_
      simpa [hij] using hb
    | lose i =>
      have hij : ¬ (j = i) := by rintro rfl; exact hi0.2 rfl
      refine ih hi' ?_ hb
      simpa [hij] using hg

/-- **C96** Refuted, from the start: however much the connections take, some command of client 1 stops the server; then a command of client 0, who does read, is never executed, unless client 1 reads or its connection breaks. -/
theorem C96_starved_refuted (room : Nat → Nat) : ∃ es h, Writes.Run (fun _ => Sample.app) (Hub.init two room) es h ∧ (∀ j, h.gone j = false) ∧ h.queue = [.feed 0 1 bs!"any x"] ∧
    ∀ es' h', Writes.Run (fun _ => Sample.app) h es' h' → (∀ e ∈ es', Idle 1 e) → h'.s = h.s ∧ h'.done = h.done ∧ .feed 0 1 bs!"any x" ∈ h'.queue := by
  let t : Str := List.replicate (room 1 + 1) b%'x'
  have hte : Telnet.encode t = t := by
    have : ∀ n, Telnet.encode (List.replicate n b%'x') = List.replicate n b%'x' := by
      intro n
      induction n with
      | zero => rfl
      | succ n ih => rw [List.replicate_succ]; simp only [Telnet.encode]; rw [if_neg (by decide), ih]
    exact this _
  let s1 : State (List Nat) (List Str) := two.after 1 ((two.view 1).act (.out t))
  have hst : Sessions.step (fun _ => Sample.app) two (.act 1 (.out t)) = .ok s1 := rfl
  have hout : ∀ j, (s1.own j).out = ((two : State (List Nat) (List Str)).own j).out ++ textOf [(1, t)] j := by
    intro j
    by_cases hj : j = 1
    · subst hj; simp [s1, State.after, owned, World.act, textOf, State.view, World.put, Io.put]
    · have hj' : ¬ (1 = j) := fun e => hj e.symm
      simp [s1, State.after, hj, hj', World.act, textOf, State.view, World.put, Io.put]
  let h0 := Hub.init (two : State (List Nat) (List Str)) room
  refine ⟨[.post (.act 1 (.out t)), .exec [(1, t)], .post (.feed 0 1 bs!"any x")], _,
    .cons (.post h0 _ rfl) (.cons (.exec _ (.act 1 (.out t)) [] s1 [(1, t)] rfl rfl hst (fun j _ => hout j) (fun w hw => by cases List.mem_singleton.1 hw; rfl)) (.cons (.post _ _ rfl) (.nil _))), fun _ => rfl, rfl, ?_⟩
  intro es' h' r hi
  have hb := C96_stalled_refuted _ 1 _ h' es' r hi rfl (by
    simp only [encoded, textOf]
    have : (t.isEmpty) = false := by simp [t]
    simp [this, hte, h0, Hub.init, t])
  refine ⟨hb.1, hb.2.1, ?_⟩
  rw [posted_queue r hb.2.1]
  simp

/-- Empty portions are not written. -/
def Filled (h : Hub σ τ) : Prop := ∀ w ∈ h.writes, w.2 ≠ []

theorem encode_ne (s : Str) (h : s ≠ []) : Telnet.encode s ≠ [] := by
  cases s with
  | nil => exact absurd rfl h
  | cons c s => simp only [Telnet.encode]; split <;> simp

theorem filled_step {A : Nat → App σ τ} {h h' : Hub σ τ} {e : Writes.Ev} (st : Writes.Step A h e h') (hf : Filled h) : Filled h' := by
  cases st with
  | post op _ => exact hf
  | exec op rest s' texts hw hq hst hout hlv =>
    intro w hw'
    simp only [encoded, List.mem_map, List.mem_filter] at hw'
    obtain ⟨v, ⟨_, hv⟩, rfl⟩ := hw'
    exact encode_ne _ (by simpa using hv)
  | take j b rest k hw hg hk hkb hkr =>
    intro w hw'
    simp only at hw'
    split at hw'
    · exact hf w (by rw [hw]; simp [hw'])
    · rcases List.mem_cons.1 hw' with rfl | hw'
      · simp only; intro e; have := congrArg List.length e; simp at this; omega
      · exact hf w (by rw [hw]; simp [hw'])
  | fail j b rest hw hg => intro w hw'; exact hf w (by rw [hw]; simp [show w ∈ rest from hw'])
  | read j k => exact hf
  | lose j => exact hf

theorem filled_run {A : Nat → App σ τ} {h h' : Hub σ τ} {es : List Writes.Ev} (r : Writes.Run A h es h') (hf : Filled h) : Filled h' := by
  induction r with
  | nil => exact hf
  | cons st _ ih => exact ih (filled_step st hf)

theorem drains (A : Nat → App σ τ) (n : Nat) : ∀ (h : Hub σ τ), h.writes.length = n → Filled h → (∀ j, h.gone j = false → (textOf h.writes j).length ≤ h.room j) →
    ∃ es h', Writes.Run A h es h' ∧ (∀ e ∈ es, (∃ k, e = .take k) ∨ e = .fail) ∧ h'.writes = [] ∧ h'.s = h.s ∧ h'.queue = h.queue ∧ h'.done = h.done := by
  induction n with
  | zero => intro h hn _ _; exact ⟨[], h, .nil h, by simp, by simpa using hn, rfl, rfl, rfl⟩
  | succ n ih =>
    intro h hn hf hfit
    cases hw : h.writes with
    | nil => rw [hw] at hn; simp at hn
    | cons w rest =>
      obtain ⟨j, b⟩ := w
      rw [hw] at hn
      simp only [List.length_cons, Nat.add_right_cancel_iff] at hn
      have hb : b ≠ [] := hf (j, b) (by rw [hw]; simp)
      cases hg : h.gone j with
      | true =>
        obtain ⟨es, h', r, h1, h2, h3, h4, h5⟩ := ih { h with writes := rest } hn (fun w hw' => hf w (by rw [hw]; simp [show w ∈ rest from hw'])) (by
          intro i hi
          have := hfit i hi
          have hij : j ≠ i := by rintro rfl; simp only at hi; rw [hg] at hi; cases hi
          rw [hw] at this
          simpa [textOf, hij] using this)
        exact ⟨.fail :: es, h', .cons (.fail h j b rest hw hg) r, by simpa using h1, h2, h3, h4, h5⟩
      | false =>
        have hfj := hfit j hg
        rw [hw] at hfj
        simp only [textOf, List.filter_cons, beq_self_eq_true, if_true, List.flatMap_cons, List.length_append] at hfj
        have st := Writes.Step.take (A := A) h j b rest b.length hw hg (by cases b; exact absurd rfl hb; simp) (Nat.le_refl _) (by omega)
        rw [if_pos rfl] at st
        obtain ⟨es, h', r, h1, h2, h3, h4, h5⟩ := ih _ (by exact hn) (filled_step st hf) (by
          intro i hi
          simp only at hi ⊢
          by_cases hij : j = i
          · subst hij
            simp only [if_true, textOf]; omega
          · have hij' : ¬ (i = j) := fun e => hij e.symm
            have := hfit i hi
            rw [hw] at this
            simp only [hij', if_false]
            simpa [textOf, hij] using this)
        refine ⟨.take b.length :: es, h', .cons st r, ?_, h2, h3, h4, h5⟩
        intro e he
        rcases List.mem_cons.1 he with rfl | he
        · exact .inl ⟨_, rfl⟩
        · exact h1 e he

theorem filled_init (s0 : State σ τ) (room : Nat → Nat) : Filled (Hub.init s0 room) := by intro w hw; cases hw

/-- **C96** (part) If, for each connection that is not broken, what the task has still to send fits into the connection's buffers, the task is finished without the clients doing anything: some bytes are handed over at each step, or
    a write fails, and nothing else happens. Then the next task is executed. Missing: when it does not fit (refuted above). -/
theorem C96_fits_partial (A : Nat → App σ τ) (s0 : State σ τ) (room : Nat → Nat) (es0 : List Writes.Ev) (h : Hub σ τ) (r0 : Writes.Run A (Hub.init s0 room) es0 h)
    (hfit : ∀ j, h.gone j = false → (textOf h.writes j).length ≤ h.room j) :
    ∃ es h', Writes.Run A h es h' ∧ (∀ e ∈ es, (∃ k, e = .take k) ∨ e = .fail) ∧ h'.writes = [] ∧ h'.s = h.s ∧ h'.queue = h.queue ∧ h'.done = h.done :=
  drains A _ h rfl (filled_run r0 (filled_init s0 room)) hfit

/-- The commands of both clients are executed, and sent in portions. -/
example : ∃ h es h', Writes.Run (fun _ => Sample.app) (Hub.init two (fun _ => 6)) [.post (.prompt 1), .post (.prompt 0), .exec [(1, bs!"cli"), (1, bs!"> ")]] h ∧ Filled h ∧ h.writes.length = 2 ∧
    Writes.Run (fun _ => Sample.app) h es h' ∧ h'.writes = [] ∧ h'.sent 1 = bs!"cli> " ∧ h'.queue = [.prompt 0] := by
  let s1 : State (List Nat) (List Str) := two.after 1 ((two.view 1).put bs!"cli> ")
  have hst : Sessions.step (fun _ => Sample.app) two (.prompt 1) = .ok s1 := rfl
  have hout : ∀ j, (s1.own j).out = ((two : State (List Nat) (List Str)).own j).out ++ textOf [(1, bs!"cli"), (1, bs!"> ")] j := by
    intro j
    by_cases hj : j = 1
    · subst hj; rfl
    · have hj' : ¬ (1 = j) := fun e => hj e.symm
      simp [s1, State.after, hj, hj', textOf, State.view, World.put, Io.put]
  refine ⟨_, [.take 2, .take 1, .take 2], _, .cons (.post (Hub.init two (fun _ => 6)) _ rfl) (.cons (.post _ _ rfl) (.cons (.exec _ (.prompt 1) [.prompt 0] s1 _ rfl rfl hst (fun j _ => hout j) (by decide)) (.nil _))), ?_, rfl,
    .cons (.take _ 1 bs!"cli" [(1, bs!"> ")] 2 rfl rfl (by decide) (by decide) (by decide))
      (.cons (.take _ 1 bs!"i" [(1, bs!"> ")] 1 rfl rfl (by decide) (by decide) (by decide)) (.cons (.take _ 1 bs!"> " [] 2 rfl rfl (by decide) (by decide) (by decide)) (.nil _))), rfl, rfl, rfl⟩
  intro w hw
  have hw' : w ∈ [((1 : Nat), bs!"cli"), (1, bs!"> ")] := hw
  simp only [List.mem_cons, List.not_mem_nil, or_false] at hw'
  rcases hw' with rfl | rfl <;> simp

/-- **C96** (part) Each client can make the server go on: if the client that the thread is writing to reads one byte, or goes away, something is sent or given up; and this happens at most as often as there are bytes to
    be sent. So if all clients keep reading (or go away), every task is finished. -/
theorem C96_reading_partial (A : Nat → App σ τ) (s0 : State σ τ) (room : Nat → Nat) (es0 : List Writes.Ev) (h : Hub σ τ) (r0 : Writes.Run A (Hub.init s0 room) es0 h) (j : Nat) (b : Str) (rest : List (Nat × Str)) (hw : h.writes = (j, b) :: rest) :
    (h.gone j = true ∨ 0 < h.room j → ∃ e h', ((∃ k, e = .take k) ∨ e = .fail) ∧ Writes.Step A h e h') ∧
    ∀ e h', Writes.Step A h e h' → ((∃ k, e = .take k) ∨ e = .fail) → (h'.writes.map (·.2.length)).sum < (h.writes.map (·.2.length)).sum ∧ h'.s = h.s ∧ h'.queue = h.queue := by
  have hb : b ≠ [] := filled_run r0 (filled_init s0 room) (j, b) (by rw [hw]; simp)
  have hbl : 0 < b.length := by cases b; exact absurd rfl hb; simp
  constructor
  · intro hh
    cases hg : h.gone j with
    | true => exact ⟨.fail, _, .inr rfl, .fail h j b rest hw hg⟩
    | false =>
      rcases hh with hh | hh
      · rw [hg] at hh; cases hh
      · exact ⟨.take 1, _, .inl ⟨1, rfl⟩, .take h j b rest 1 hw hg (by omega) hbl hh⟩
  · intro e h' st he
    cases st with
    | take i c rest' k hw' hg hk hkb hkr =>
      rw [hw] at hw'
      cases hw'
      refine ⟨?_, rfl, rfl⟩
      rw [hw]
      simp only
      split
      · simp; omega
      · simp; omega
    | fail i c rest' hw' hg =>
      rw [hw] at hw'
      cases hw'
      refine ⟨?_, rfl, rfl⟩
      rw [hw]
      simp; omega
    | post op _ => rcases he with ⟨k, he⟩ | he <;> cases he
    | exec _ _ _ _ _ _ _ _ _ => rcases he with ⟨k, he⟩ | he <;> cases he
    | read _ _ => rcases he with ⟨k, he⟩ | he <;> cases he
    | lose _ => rcases he with ⟨k, he⟩ | he <;> cases he

/-! ### The server works -/

/-- What a session has on its stream stays there. -/
def Keeps (w w' : World σ τ) : Prop := w.io.out <+: w'.io.out

theorem keeps_put (w : World σ τ) (s : Str) : Keeps w (w.put s) := ⟨s, rfl⟩

theorem keeps_act (w : World σ τ) (a : Act) : Keeps w (w.act a) := by
  cases a with
  | cout s => exact ⟨s, rfl⟩
  | out s => exact ⟨s, rfl⟩
  | color on => exact List.prefix_refl _
  | enable id => simp only [World.act]; split <;> exact List.prefix_refl _
  | disable id => simp only [World.act]; split <;> exact List.prefix_refl _
  | remove id => simp only [World.act]; split <;> exact List.prefix_refl _
  | insert mid new => simp only [World.act]; split <;> exact List.prefix_refl _

theorem only_any (A : App σ τ) : A.Only (fun _ => True) := by constructor <;> intros <;> trivial

theorem closed_keeps (A : App σ τ) : Closed A (Keeps (σ := σ) (τ := τ)) :=
  closed_acts (only_any A) (fun _ => List.prefix_refl _) (fun h1 h2 => List.IsPrefix.trans h1 h2) (fun _ _ => List.prefix_refl _) (fun w a _ => keeps_act w a) (fun _ _ => List.prefix_refl _) keeps_put
    (fun _ _ => List.prefix_refl _) (fun _ _ _ => List.prefix_refl _)

theorem keeps_prompt {w w' : World σ τ} (h : Verif.prompt w = .ok w') : Keeps w w' := by
  unfold Verif.prompt at h
  split at h
  · cases h; exact List.prefix_refl _
  · split at h
    · cases h
      unfold Keeps Io.beforePrompt Io.afterPrompt Io.sgr Io.force Io.put
      split <;> (repeat' split) <;> simp
    · cases h

theorem keeps_work {A : App σ τ} {op : Sessions.Op} {w w' : World σ τ} (h : work A op w = .ok w') : Keeps w w' := by
  cases op with
  | create i n t => cases h; exact List.prefix_refl _
  | destroy i => cases h; exact List.prefix_refl _
  | feed i fuel line =>
    simp only [work] at h
    split at h
    · rename_i hf; cases h; exact closed_feed (closed_keeps A) (fun _ _ => List.prefix_refl _) _ _ _ _ _ hf
    · cases h
  | prompt i => exact keeps_prompt h
  | enter i => cases h; exact closed_enter (closed_keeps A) _
  | exit i =>
    simp only [work] at h
    split at h
    · rename_i hf; cases h; exact closed_exit (closed_keeps A) _ _ _ hf
    · cases h
  | up i s =>
    simp only [work] at h
    split at h
    · cases h; exact List.prefix_refl _
    · cases h
  | down i =>
    simp only [work] at h
    split at h
    · cases h; exact List.prefix_refl _
    · cases h
  | act i a => cases h; exact keeps_act _ _

theorem keeps_step {A : Nat → App σ τ} {S S' : State σ τ} {op : Sessions.Op} (ho : isLife op = false) (h : Sessions.step A S op = .ok S') (j : Nat) : (S.own j).out <+: (S'.own j).out := by
  have gen : (if S.live op.who then
      match work (A op.who) op (S.view op.who) with
      | .ok w => Except.ok (S.after op.who w)
      | .error f => .error f
    else .ok S) = .ok S' → (S.own j).out <+: (S'.own j).out := by
    intro h
    split at h
    · split at h
      · rename_i w hw
        cases h
        simp only [State.after]
        split
        · rename_i hj; subst hj; exact keeps_work hw
        · exact List.prefix_append _ _
      · cases h
    · cases h; exact List.prefix_refl _
  cases op with
  | create i n t => cases ho
  | destroy i => cases ho
  | feed i fuel line => exact gen h
  | prompt i => exact gen h
  | enter i => exact gen h
  | exit i => exact gen h
  | up i s => exact gen h
  | down i => exact gen h
  | act i a => exact gen h

theorem textOf_each (live : Nat → Bool) (t : Nat → Str) (n i : Nat) : textOf (((List.range n).filter live).map (fun j => (j, t j))) i = if i < n ∧ live i = true then t i else [] := by
  induction n with
  | zero => simp [textOf]
  | succ n ih =>
    have e : ∀ a b, textOf (a ++ b) i = textOf a i ++ textOf b i := by intro a b; simp [textOf]
    rw [List.range_succ, List.filter_append, List.map_append, e, ih]
    by_cases hl : live n = true
    · by_cases hi : n = i
      · subst hi; simp [textOf, hl]
      · have : (i < n + 1 ∧ live i = true) ↔ (i < n ∧ live i = true) := by constructor <;> rintro ⟨h1, h2⟩ <;> exact ⟨by omega, h2⟩
        simp [textOf, hl, hi, this]
    · have : (i < n + 1 ∧ live i = true) ↔ (i < n ∧ live i = true) := by
        constructor
        · rintro ⟨h1, h2⟩
          refine ⟨?_, h2⟩
          rcases Nat.lt_or_ge i n with h | h
          · exact h
          · have : i = n := by omega
            subst this; exact absurd h2 hl
        · rintro ⟨h1, h2⟩; exact ⟨by omega, h2⟩
      simp [textOf, hl, this]

/-- All clients read. -/
theorem all_read (A : Nat → App σ τ) (k n : Nat) : ∀ (h : Hub σ τ), ∃ es room, Writes.Run A h es { h with room := room } ∧ (∀ e ∈ es, ∃ j, e = .read j k) ∧ ∀ j, j < n → k ≤ room j := by
  induction n with
  | zero => intro h; exact ⟨[], h.room, .nil h, by simp, fun j hj => absurd hj (by omega)⟩
  | succ n ih =>
    intro h
    obtain ⟨es, room, r, h1, h2⟩ := ih h
    refine ⟨es ++ [.read n k], _, run_writes_append r (.cons (.read _ n k) (.nil _)), ?_, ?_⟩
    · intro e he
      rcases List.mem_append.1 he with he | he
      · exact h1 e he
      · cases List.mem_singleton.1 he; exact ⟨n, rfl⟩
    · intro j hj
      simp only
      split
      · omega
      · exact h2 j (by omega)

theorem stays {A : Nat → App σ τ} {h h' : Hub σ τ} {es : List Writes.Ev} (r : Writes.Run A h es h') (hl : ∀ j, .lose j ∉ es) : h'.gone = h.gone := by
  induction r with
  | nil => rfl
  | cons st _ ih =>
    rw [ih (fun j hj => hl j (by simp [hj]))]
    cases st with
    | lose j => exact absurd (List.mem_cons_self ..) (hl j)
    | _ => rfl

theorem textOf_length (ws : List (Nat × Str)) (j : Nat) : (textOf ws j).length ≤ (ws.map (·.2.length)).sum := by
  induction ws with
  | nil => simp [textOf]
  | cons w ws ih =>
    have e : textOf (w :: ws) j = (if w.1 = j then w.2 else []) ++ textOf ws j := by
      simp only [textOf, List.filter_cons]
      by_cases hij : w.1 = j <;> simp [hij]
    rw [e]
    simp only [List.length_append, List.map_cons, List.sum_cons]
    split <;> simp <;> omega

/-- **C96** (part) As long as all clients read, the server works: whatever commands are entered (and whatever texts they write, to their own stream or to `Cli::cout()`), there is an execution in which all of them are executed, and all
    that has been written is sent to each client. Missing: clients that do not read (refuted above). -/
theorem C96_works_partial (A : Nat → App σ τ) (s0 : State σ τ) (room : Nat → Nat) (n : Nat) (hn : ∀ j, s0.live j = true → j < n) (ops : List Sessions.Op)
    (hl : ∀ op ∈ ops, (∀ i m t, op ≠ .create i m t) ∧ (∀ i, op ≠ .destroy i)) (s : State σ τ) (hr : Sessions.run A s0 ops = .ok s) :
    ∃ es h, Writes.Run A (Hub.init s0 room) es h ∧ es.filterMap (fun e => match e with | .post op => some op | _ => none) = ops ∧ (∀ j, .lose j ∉ es) ∧ h.done = ops ∧ h.queue = [] ∧ h.s = s ∧
      ∀ j, s0.live j = true → h.sent j = Telnet.encode (s.own j).out := by
  have life : ∀ op ∈ ops, isLife op = false := by
    intro op hop
    obtain ⟨h1, h2⟩ := hl op hop
    cases op with
    | create i m t => exact absurd rfl (h1 i m t)
    | destroy i => exact absurd rfl (h2 i)
    | _ => rfl
  have main : ∀ (ops : List Sessions.Op) (h : Hub σ τ) (s : State σ τ), (∀ op ∈ ops, isLife op = false) → h.queue = [] → h.writes = [] → h.s.live = s0.live → Sessions.run A h.s ops = .ok s →
      ∃ es h', Writes.Run A h es h' ∧ (∀ j, .lose j ∉ es) ∧ es.filterMap (fun e => match e with | .post op => some op | _ => none) = ops ∧ h'.done = h.done ++ ops ∧ h'.queue = [] ∧ h'.writes = [] ∧ h'.s = s := by
    intro ops
    induction ops with
    | nil => intro h s _ hq hw _ hr; cases hr; exact ⟨[], h, .nil h, by simp, rfl, by simp, hq, hw, rfl⟩
    | cons op ops ih =>
      intro h s hlf hq hw hlive hr
      simp only [Sessions.run] at hr
      split at hr
      · rename_i s1 hs1
        have ho := hlf op (by simp)
        have hk := fun j => keeps_step ho hs1 j
        let texts : List (Nat × Str) := ((List.range n).filter h.s.live).map (fun j => (j, (s1.own j).out.drop (h.s.own j).out.length))
        have st1 := Writes.Step.post (A := A) h op ho
        have st2 := Writes.Step.exec (A := A) { h with queue := h.queue ++ [op] } op [] s1 texts hw (by simp [hq]) hs1 (by
          intro j hj
          simp only at hj ⊢
          rw [textOf_each, if_pos ⟨hn j (by rw [← hlive]; exact hj), hj⟩]
          obtain ⟨t, ht⟩ := hk j
          rw [← ht]; simp) (by
          intro w hw
          simp only [texts, List.mem_map, List.mem_filter] at hw
          obtain ⟨j, ⟨_, hj⟩, rfl⟩ := hw
          exact hj)
        let h2 : Hub σ τ := { h with queue := [], s := s1, writes := encoded texts, done := h.done ++ [op] }
        have st2 : Writes.Step A { h with queue := h.queue ++ [op] } (.exec texts) h2 := st2
        obtain ⟨es3, room3, r3, h31, h32⟩ := all_read A (((encoded texts).map (·.2.length)).sum) n h2
        have hf : Filled { h2 with room := room3 } := by
          have : Filled h2 := filled_step st2 (by intro w hw'; simp only at hw'; rw [hw] at hw'; cases hw')
          exact this
        obtain ⟨es4, h4, r4, h41, h42, h43, h44, h45⟩ := drains A _ { h2 with room := room3 } rfl hf (by
          intro j _
          simp only
          rcases Nat.lt_or_ge j n with hj | hj
          · exact Nat.le_trans (textOf_length _ j) (h32 j hj)
          · have : textOf (encoded texts) j = [] := by
              rw [textOf_encoded]
              have : textOf texts j = [] := by rw [textOf_each, if_neg]; rintro ⟨h, _⟩; omega
              rw [this]; rfl
            show (textOf (encoded texts) j).length ≤ _
            rw [this]; simp)
        obtain ⟨es5, h5, r5, h51, h52, h53, h54, h55, h56⟩ := ih h4 s (fun o ho => hlf o (by simp [ho])) (by rw [h44]) h42 (by
          rw [h43]
          show s1.live = _
          rw [live_same ho hs1]; exact hlive) (by rw [h43]; exact hr)
        have nolose : ∀ j, (Writes.Ev.lose j) ∉ es3 ++ es4 := by
          intro j hj
          rcases List.mem_append.1 hj with hj | hj
          · obtain ⟨i, e⟩ := h31 _ hj; cases e
          · rcases h41 _ hj with ⟨k, e⟩ | e <;> cases e
        have noposts : (es3 ++ es4).filterMap (fun e => match e with | .post op => some op | _ => none) = [] := by
          rw [List.filterMap_eq_nil_iff]
          intro e he
          rcases List.mem_append.1 he with he | he
          · obtain ⟨i, rfl⟩ := h31 _ he; rfl
          · rcases h41 _ he with ⟨k, rfl⟩ | rfl <;> rfl
        refine ⟨.post op :: .exec texts :: ((es3 ++ es4) ++ es5), h5, .cons st1 (.cons st2 (run_writes_append (run_writes_append r3 r4) r5)), ?_, ?_, ?_, h54, h55, h56⟩
        · intro j hj
          simp only [List.mem_cons, reduceCtorEq, false_or] at hj
          rcases List.mem_append.1 hj with hj | hj
          · exact nolose j hj
          · exact h51 j hj
        · simp only [List.filterMap_cons]
          rw [List.filterMap_append, noposts, h52]
          rfl
        · rw [h53, h45]; simp [h2]
      · cases hr
  obtain ⟨es, h, r, h1, h2, h3, h4, h5, h6⟩ := main ops (Hub.init s0 room) s life rfl rfl rfl hr
  refine ⟨es, h, r, h2, h1, by simpa [Hub.init] using h3, h4, h6, ?_⟩
  intro j hj
  obtain ⟨late, e1, e2⟩ := (C96_output A s0 room es h r).2 j hj (by rw [stays r h1]; rfl)
  rw [e2 h5, List.append_nil, h6] at e1
  exact e1

/-- A text for all, and a prompt: each client gets its own. -/
example : ∃ es h, Writes.Run (fun _ => Sample.app) (Hub.init two (fun _ => 0)) es h ∧ h.sent 0 = bs!"hi\x0d\x0acli> " ∧ h.sent 1 = bs!"hi\x0d\x0a" := by
  obtain ⟨es, h, r, _, _, _, _, _, e⟩ := C96_works_partial (fun _ => Sample.app) two (fun _ => 0) 2 (fun j hj => by
    rcases Nat.lt_or_ge j 2 with h | h
    · exact h
    · simp only [two, decide_eq_true_eq] at hj; omega) [.act 1 (.cout bs!"hi\n"), .prompt 0] (by simp) _ rfl
  exact ⟨es, h, r, e 0 rfl, e 1 rfl⟩

end Verif.Props
