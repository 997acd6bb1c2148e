import Verif.Proofs.History

/-! Histories under sequences of user operations. -/

set_option linter.unusedSimpArgs false

namespace Verif.History
open Verif.HistoryList

/-- What a session does to its history: enter a line, press Up while `line` is displayed, press Down, enter a `! n` line
    (which is recorded and then forgotten). -/
inductive Op where
  | new (item : Str)
  | up (line : Str)
  | down
  | bang (item : Str)
  deriving DecidableEq, Repr

/-- Effect of one operation. -/
def step (h : History) : Op → Except Fault History
  | .new item => newCommand h item
  | .up line => (previous h line).map (·.2)
  | .down => (next h).map (·.2)
  | .bang item => do
    let h ← newCommand h item
    forgetLatest h

/-- Effect of a sequence of operations. -/
def run (h : History) : List Op → Except Fault History
  | [] => .ok h
  | op :: ops => do
    let h ← step h op
    run h ops

theorem previous_zero {h : History} (hw : WF h) (hm : h.maxSize = 0) (line : Str) :
    ∃ e, previous h line = .error e := by
  unfold previous
  cases hmd : h.mode with
  | browsing =>
    have := hw.browse hmd
    have := hw.bound
    omega
  | inserting =>
    have hb : (insert h line).buffer = [] := by rw [insert_buffer h hw.bound, hm]; rfl
    simp only [getCurrent, hb]
    exact ⟨_, rfl⟩

theorem forget_wf {h : History} (hw : WF h) (hmd : h.mode = .inserting) {h' : History} (hf : forgetLatest h = .ok h') :
    WF h' ∧ h'.maxSize = h.maxSize ∧ h'.mode = .inserting := by
  unfold forgetLatest at hf
  split at hf
  · cases hf
  · rename_i x rest hb
    injection hf with hf
    subst hf
    have hbd := hw.bound
    rw [hb] at hbd
    simp at hbd
    exact ⟨⟨by simp; omega, by simp [hmd], fun _ => hw.ins hmd⟩, rfl, hmd⟩

theorem step_wf {h : History} (hw : WF h) {op : Op} {h' : History} (hs : step h op = .ok h') :
    WF h' ∧ h'.maxSize = h.maxSize := by
  cases op with
  | new item =>
    obtain ⟨h1, h2, h3, h4, _⟩ := newCommand_ok hw item
    simp only [step] at hs
    rw [h2] at hs; injection hs with hs; subst hs
    exact ⟨h3, h4⟩
  | up line =>
    simp only [step] at hs
    by_cases hm : h.maxSize = 0
    · obtain ⟨e, he⟩ := previous_zero hw hm line
      rw [he] at hs; cases hs
    · obtain ⟨s, h1, h2, h3, h4, _⟩ := previous_ok hw (by omega) line
      rw [h2] at hs; injection hs with hs; subst hs
      exact ⟨h3, h4⟩
  | down =>
    simp only [step] at hs
    obtain ⟨s, h1, h2, h3, h4, _⟩ := next_ok hw
    rw [h2] at hs; injection hs with hs; subst hs
    exact ⟨h3, h4⟩
  | bang item =>
    obtain ⟨h1, h2, h3, h4, h5, _⟩ := newCommand_ok hw item
    simp only [step, h2, bind, Except.bind] at hs
    obtain ⟨h6, h7, _⟩ := forget_wf h3 h5 hs
    exact ⟨h6, h7.trans h4⟩

theorem step_total {h : History} (hw : WF h) (hm : 1 ≤ h.maxSize) (op : Op) : ∃ h', step h op = .ok h' := by
  cases op with
  | new item => obtain ⟨h1, h2, _⟩ := newCommand_ok hw item; exact ⟨h1, h2⟩
  | up line =>
    obtain ⟨s, h1, h2, _⟩ := previous_ok hw hm line
    exact ⟨h1, by simp [step, h2, Except.map]⟩
  | down =>
    obtain ⟨s, h1, h2, _⟩ := next_ok hw
    exact ⟨h1, by simp [step, h2, Except.map]⟩
  | bang item =>
    obtain ⟨h1, h2, h3, h4, h5, _, h6⟩ := newCommand_ok hw item
    have := h6 hm
    match hb : h1.buffer with
    | [] => exact absurd hb this
    | x :: rest => exact ⟨{ h1 with buffer := rest }, by simp [step, h2, bind, Except.bind, forgetLatest, hb]⟩

theorem run_wf {ops : List Op} : ∀ {h h' : History}, WF h → run h ops = .ok h' → WF h' ∧ h'.maxSize = h.maxSize := by
  induction ops with
  | nil => intro h h' hw hr; injection hr with hr; subst hr; exact ⟨hw, rfl⟩
  | cons op ops ih =>
    intro h h' hw hr
    simp only [run, bind, Except.bind] at hr
    cases hs : step h op with
    | error e => simp [hs] at hr
    | ok h1 =>
      simp only [hs] at hr
      obtain ⟨hw1, hm1⟩ := step_wf hw hs
      obtain ⟨hw2, hm2⟩ := ih hw1 hr
      exact ⟨hw2, hm2.trans hm1⟩

theorem run_total {ops : List Op} : ∀ {h : History}, WF h → 1 ≤ h.maxSize → ∃ h', run h ops = .ok h' := by
  induction ops with
  | nil => intro h _ _; exact ⟨h, rfl⟩
  | cons op ops ih =>
    intro h hw hm
    obtain ⟨h1, hs⟩ := step_total hw hm op
    obtain ⟨hw1, hm1⟩ := step_wf hw hs
    obtain ⟨h2, hr⟩ := ih hw1 (by omega)
    exact ⟨h2, by simp [run, hs, bind, Except.bind, hr]⟩

/-! ### Up and Down -/

/-- Press Up `k` times, the displayed line being passed each time. -/
def ups : Nat → Str → History → Except Fault (Str × History)
  | 0, line, h => .ok (line, h)
  | k + 1, line, h => do
    let (l, h) ← ups k line h
    previous h l

/-- Press Down `k` times. -/
def downs : Nat → Str → History → Except Fault (Str × History)
  | 0, line, h => .ok (line, h)
  | k + 1, line, h => do
    let (_, h) ← downs k line h
    next h

theorem ups_spec {h : History} (hb : h.buffer.length ≤ h.maxSize) (hm : 1 ≤ h.maxSize) (hmd : h.mode = .inserting)
    (typed : Str) (k : Nat) :
    ∃ s, ups (k + 1) typed h = .ok (s, { insert h typed with
          mode := .browsing, current := min (k + 1) ((insert h typed).buffer.length - 1) }) ∧
      (insert h typed).buffer[min (k + 1) ((insert h typed).buffer.length - 1)]? = some s := by
  induction k with
  | zero =>
    obtain ⟨s, h1, h2⟩ := previous_inserting hb hm hmd typed
    have hne := insert_nonempty h hb hm typed
    have hpos : 0 < (insert h typed).buffer.length := List.length_pos_iff.2 hne
    have e : (if (insert h typed).buffer.length > 1 then 1 else 0) = min (0 + 1) ((insert h typed).buffer.length - 1) := by
      split <;> omega
    rw [e] at h1 h2
    refine ⟨s, ?_, h2⟩
    simp only [ups, bind, Except.bind]
    exact h1
  | succ k ih =>
    obtain ⟨s, h1, h2⟩ := ih
    generalize hB : insert h typed = B at *
    have hlt := (List.getElem?_eq_some_iff.1 h2).1
    obtain ⟨s', h3, h4⟩ := previous_browsing
      (h := { B with mode := .browsing, current := min (k + 1) (B.buffer.length - 1) }) hlt rfl s
    have hset : B.buffer.set (min (k + 1) (B.buffer.length - 1)) s = B.buffer := by
      have := (List.getElem?_eq_some_iff.1 h2).2
      rw [← this]
      exact List.set_getElem_self hlt
    simp only [hset] at h3 h4
    have e : min (min (k + 1) (B.buffer.length - 1) + 1) (B.buffer.length - 1) = min (k + 1 + 1) (B.buffer.length - 1) := by
      omega
    rw [e] at h3 h4
    refine ⟨s', ?_, h4⟩
    rw [ups]
    simp only [h1, bind, Except.bind]
    exact h3

theorem downs_spec (B : History) (c : Nat) (hc : c < B.buffer.length) (s : Str) (hs : B.buffer[c]? = some s) (j : Nat)
    (hj : j ≤ c) :
    ∃ s', downs j s { B with current := c } = .ok (s', { B with current := c - j }) ∧
      B.buffer[c - j]? = some s' := by
  induction j with
  | zero => exact ⟨s, rfl, hs⟩
  | succ j ih =>
    obtain ⟨s', h1, h2⟩ := ih (by omega)
    have hlt : c - j - 1 < B.buffer.length := by omega
    have hg := getCurrent_ok (h := { B with current := c - j - 1 }) hlt
    refine ⟨B.buffer[c - j - 1], ?_, ?_⟩
    · simp only [downs, h1, bind, Except.bind, next]
      have : B.buffer ≠ [] := by intro h; rw [h] at hc; simp at hc
      rw [if_neg (by simp [this]; omega)]
      simp only [hg, pure, Except.pure]
      rfl
    · rw [← List.getElem?_eq_getElem hlt]
      congr 1

/-! ### Browsing without editing -/

/-- Up (`true`) and Down (`false`) keys, pressed without editing the displayed line. -/
def browse : List Bool → Str → History → Except Fault (Str × History)
  | [], line, h => .ok (line, h)
  | true :: ks, line, h => do
    let (l, h) ← previous h line
    browse ks l h
  | false :: ks, _, h => do
    let (l, h) ← next h
    browse ks l h

/-- State of a browse: the entries are those after the first Up, apart from the edited line itself. -/
structure Browsing (h0 h : History) (line : Str) : Prop where
  mode : h.mode = .browsing
  tail : h.buffer.tail = h0.buffer.take (h0.maxSize - 1)
  cur : h.current < h.buffer.length
  disp : h.current = 0 ∨ h.buffer[h.current]? = some line
  id : h.idOfOldest = (insert h0 []).idOfOldest
  cmds : h.commands = h0.commands
  max : h.maxSize = h0.maxSize

theorem insert_id (h : History) (a b : Str) : (insert h a).idOfOldest = (insert h b).idOfOldest := by
  unfold insert; simp only [List.length_cons]; split <;> rfl

theorem browsing_up {h0 h : History} {line : Str} (hb : Browsing h0 h line) :
    ∃ l h', previous h line = .ok (l, h') ∧ Browsing h0 h' l := by
  obtain ⟨s, h1, h2⟩ := previous_browsing hb.cur hb.mode line
  refine ⟨s, _, h1, ⟨hb.mode, ?_, ?_, .inr h2, hb.id, hb.cmds, hb.max⟩⟩
  · rcases hb.disp with hd | hd
    · rw [hd, ← hb.tail]
      cases h.buffer <;> rfl
    · have := (List.getElem?_eq_some_iff.1 hd).2
      rw [← hb.tail]
      simp only
      congr 1
      rw [← this]
      exact List.set_getElem_self hb.cur
  · have := (List.getElem?_eq_some_iff.1 h2).1; exact this

theorem browsing_down {h0 h : History} {line : Str} (hb : Browsing h0 h line) :
    ∃ l h', next h = .ok (l, h') ∧ Browsing h0 h' l := by
  unfold next
  have hne : h.buffer ≠ [] := by intro e; have := hb.cur; rw [e] at this; simp at this
  by_cases hc : h.current = 0
  · rw [if_pos (.inr hc)]
    exact ⟨_, _, rfl, hb.mode, hb.tail, hb.cur, .inl hc, hb.id, hb.cmds, hb.max⟩
  · rw [if_neg (by simp [hne, hc])]
    have hlt : h.current - 1 < h.buffer.length := by have := hb.cur; omega
    have hg := getCurrent_ok (h := { h with current := h.current - 1 }) hlt
    simp only [hg]
    exact ⟨_, _, rfl, hb.mode, hb.tail, hlt, .inr (List.getElem?_eq_getElem hlt), hb.id, hb.cmds, hb.max⟩

theorem browse_browsing {ks : List Bool} : ∀ {h0 h : History} {line : Str}, Browsing h0 h line →
    ∃ l h', browse ks line h = .ok (l, h') ∧ Browsing h0 h' l := by
  induction ks with
  | nil => intro h0 h line hb; exact ⟨line, h, rfl, hb⟩
  | cons k ks ih =>
    intro h0 h line hb
    cases k with
    | true =>
      obtain ⟨l, h', h1, h2⟩ := browsing_up hb
      obtain ⟨l2, h2', h3, h4⟩ := ih h2
      exact ⟨l2, h2', by simp [browse, h1, bind, Except.bind, h3], h4⟩
    | false =>
      obtain ⟨l, h', h1, h2⟩ := browsing_down hb
      obtain ⟨l2, h2', h3, h4⟩ := ih h2
      exact ⟨l2, h2', by simp [browse, h1, bind, Except.bind, h3], h4⟩

theorem browse_inserting {ks : List Bool} : ∀ {h : History} {line : Str}, WF h → h.mode = .inserting → 1 ≤ h.maxSize →
    ∃ l h', browse ks line h = .ok (l, h') ∧ (h' = h ∨ Browsing h h' l) := by
  induction ks with
  | nil => intro h line _ _ _; exact ⟨line, h, rfl, .inl rfl⟩
  | cons k ks ih =>
    intro h line hw hmd hm
    cases k with
    | true =>
      obtain ⟨s, h1, h2⟩ := previous_inserting hw.bound hm hmd line
      have hb : Browsing h { insert h line with
          mode := .browsing, current := if (insert h line).buffer.length > 1 then 1 else 0 } s := by
        refine ⟨rfl, ?_, ?_, .inr h2, insert_id h _ _, insert_commands h line, insert_maxSize h line⟩
        · simp only
          rw [insert_buffer h hw.bound]
          cases hM : h.maxSize with
          | zero => omega
          | succ n => simp
        · have := (List.getElem?_eq_some_iff.1 h2).1; exact this
      obtain ⟨l2, h2', h3, h4⟩ := browse_browsing (ks := ks) hb
      exact ⟨l2, h2', by simp [browse, h1, bind, Except.bind, h3], .inr h4⟩
    | false =>
      have hn : next h = .ok ([], h) := by
        unfold next; rw [if_pos (.inr (hw.ins hmd))]
      obtain ⟨l, h', h1, h2⟩ := ih (line := []) hw hmd hm
      exact ⟨l, h', by simp [browse, hn, bind, Except.bind, h1], h2⟩

/-- Entering a command after browsing without editing is the same as entering it directly, unless the history is full and the command
    repeats the newest entry. -/
theorem browse_transparent {ks : List Bool} {h : History} {line : Str} (hw : WF h) (hmd : h.mode = .inserting)
    (hm : 1 ≤ h.maxSize) {item : Str} (hnf : h.buffer.length < h.maxSize ∨ h.buffer.head? ≠ some item)
    {l : Str} {h' : History} (hb : browse ks line h = .ok (l, h')) :
    newCommand h' item = newCommand h item := by
  obtain ⟨l1, h1, h2, h3⟩ := browse_inserting (ks := ks) (line := line) hw hmd hm
  rw [h2] at hb
  injection hb with hb
  injection hb with _ hb
  subst hb
  rcases h3 with rfl | h3
  · rfl
  · obtain ⟨M, buf, cur, cmds, mode, oid⟩ := h
    obtain ⟨M1, buf1, cur1, cmds1, mode1, oid1⟩ := h1
    obtain ⟨e1, e2, e3, e4, e5, e6, e7⟩ := h3
    simp only at *
    subst e1 e6 e7 hmd
    have hbd := hw.bound
    simp only at hbd
    match buf1, e2, e3 with
    | [], _, e3 => simp at e3
    | x :: rest, e2, _ =>
      simp only [List.tail_cons] at e2
      subst e2
      simp only [newCommand]
      by_cases hh : buf.head? = some item
      · have hlt := hnf.resolve_right (by simp [hh])
        have htk : List.take (M1 - 1) buf = buf := List.take_of_length_le (by omega)
        rw [htk]
        simp only [hh, if_true, ne_eq, not_true, if_false]
        congr 2
        rw [e5]
        unfold insert
        simp only [List.length_cons]
        rw [if_neg (by omega)]
      · have htk : (List.take (M1 - 1) buf).head? ≠ some item := by
          cases buf with
          | nil => simp
          | cons y ys =>
            cases hM : M1 - 1 with
            | zero => simp
            | succ n => simpa using hh
        simp only [htk, hh, ne_eq, not_false_eq_true, if_true, if_false]
        congr 1
        rw [e5]
        have hib := insert_buffer ⟨M1, buf, 0, cmds1 + 1, .inserting, oid⟩ hbd item
        have him := insert_maxSize ⟨M1, buf, 0, cmds1 + 1, .inserting, oid⟩ item
        have hic := insert_current ⟨M1, buf, 0, cmds1 + 1, .inserting, oid⟩ item
        have hicm := insert_commands ⟨M1, buf, 0, cmds1 + 1, .inserting, oid⟩ item
        simp only at hib him hic hicm
        rw [him, hic, hicm, hib]
        congr 1
        · cases hM : M1 with
          | zero => omega
          | succ n => simp
        · unfold insert; simp only [List.length_cons]; split <;> rfl

end Verif.History
