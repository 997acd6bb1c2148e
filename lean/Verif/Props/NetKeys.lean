import Verif.Props.Net

set_option linter.unusedSimpArgs false

/-!
# C49 and C78: what the server does with the data of a client, with any number of threads
-/

namespace Verif.Props
open Spec Net
open Terminal (Key)
open Telnet (Tel Server telnetApp)

variable {σ τ : Type}

/-- The keys posted and not handled yet. -/
def keysIn (q : List Task) : List Key := q.filterMap (fun | .key k => some k | _ => none)

/-- The data read and not decoded yet. -/
def readsIn (q : List Task) : List Str := q.filterMap (fun | .read d => some d | _ => none)

/-- The key handled in an event, and the data decoded. -/
def keyAt (s : Life σ τ) : Net.Ev → List Key
  | .exec i _ => (s.queue[i]?).toList.filterMap (fun | .key k => some k | _ => none)
  | _ => []

def dataAt (s : Life σ τ) : Net.Ev → List Str
  | .exec i _ => if s.tel.proc.w.app.2 then (s.queue[i]?).toList.filterMap (fun | .read d => some d | _ => none) else []
  | _ => []

/-- The keys handled in an execution and the data decoded, in order. -/
def handled (A : App σ τ) (S : Server σ) (fuel : Nat) : List Net.Ev → Life σ τ → List Key × List Str
  | [], _ => ([], [])
  | e :: es, s =>
    match Net.step A S fuel s e with
    | .ok (some (s', _)) => (keyAt s e ++ (handled A S fuel es s').1, dataAt s e ++ (handled A S fuel es s').2)
    | _ => ([], [])

/-- The data sent by the client. -/
def arrivals : List Net.Ev → List Str := List.filterMap (fun | .arrive d => some d | _ => none)

/-- The keys that the data say. -/
def decoded (t : Tel (σ × Bool) τ) (d : Str) : List Key := (keysOf t.step (rxRun t.rx d).2.data).2

theorem erase_keys {q : List Task} {i : Nat} {t : Task} (h : q[i]? = some t) :
    ∃ a b, q = a ++ t :: b ∧ a.length = i ∧ q.eraseIdx i = a ++ b := by
  induction q generalizing i with
  | nil => simp at h
  | cons x q ih =>
    cases i with
    | zero => simp at h; subst h; exact ⟨[], q, rfl, rfl, rfl⟩
    | succ i =>
      simp only [List.getElem?_cons_succ] at h
      obtain ⟨a, b, h1, h2, h3⟩ := ih h
      exact ⟨x :: a, b, by rw [h1]; rfl, by simp [h2], by simp [h3]⟩

theorem keysIn_append (a b : List Task) : keysIn (a ++ b) = keysIn a ++ keysIn b := by simp [keysIn]
theorem readsIn_append (a b : List Task) : readsIn (a ++ b) = readsIn a ++ readsIn b := by simp [readsIn]
theorem keysIn_keys (ks : List Key) : keysIn (ks.map .key) = ks := by
  induction ks with
  | nil => rfl
  | cons k ks ih => simp only [keysIn, List.map_cons, List.filterMap_cons] at ih ⊢; rw [ih]
theorem readsIn_keys (ks : List Key) : readsIn (ks.map .key) = [] := by
  induction ks with
  | nil => rfl
  | cons k ks ih => simp only [readsIn, List.map_cons, List.filterMap_cons] at ih ⊢; exact ih

/-- The decoder of the session: it is changed by the decoding of data alone. -/
def Decoder (t t' : Tel (σ × Bool) τ) (d : Str) : Prop := t'.rx = (rxRun t.rx d).1 ∧ t'.step = (keysOf t.step (rxRun t.rx d).2.data).1

theorem decoded_append (t t' : Tel (σ × Bool) τ) (d d' : Str) (h : Decoder t t' d) : decoded t (d ++ d') = decoded t d ++ decoded t' d' := by
  obtain ⟨h1, h2⟩ := h
  simp only [decoded, h1, h2, rxRun_append, keysOf_append]

/-- One event: the queue of keys. -/
theorem step_keys {A : App σ τ} {S : Server σ} {fuel : Nat} {s s' : Life σ τ} {e : Net.Ev} {x : Option Exn} (hs : Net.step A S fuel s e = .ok (some (s', x))) (hq : s.tel.queue = []) :
    s'.tel.queue = [] ∧ Decoder s.tel s'.tel (dataAt s e).flatten ∧ (keyAt s e ++ keysIn s'.queue).Perm (keysIn s.queue ++ decoded s.tel (dataAt s e).flatten) ∧
    (OneThread e → keyAt s e ++ keysIn s'.queue = keysIn s.queue ++ decoded s.tel (dataAt s e).flatten) := by
  cases e with
  | arrive d =>
    simp only [Net.step] at hs
    split at hs <;> cases hs
    refine ⟨hq, ⟨rfl, rfl⟩, ?_, fun _ => ?_⟩ <;> simp [keyAt, dataAt, keysIn, decoded, rxRun, keysOf]
  | lost =>
    simp only [Net.step] at hs
    split at hs <;> cases hs
    refine ⟨hq, ⟨rfl, rfl⟩, ?_, fun _ => ?_⟩ <;> simp [keyAt, dataAt, keysIn, decoded, rxRun, keysOf]
  | exec i alive =>
    simp only [Net.step] at hs
    split at hs
    · cases hs
    · rename_i k hk
      obtain ⟨a, b, h1, h2, h3⟩ := erase_keys hk
      have hka : keyAt s (.exec i alive) = [k] := by simp [keyAt, hk]
      have hda : dataAt s (.exec i alive) = [] := by simp [dataAt, hk]
      rw [hka, hda]
      have key : ∀ q', keysIn q' = keysIn (a ++ b) → ([k] ++ keysIn q').Perm (keysIn s.queue ++ decoded s.tel ([] : List Str).flatten) ∧
          (OneThread (.exec i alive) → [k] ++ keysIn q' = keysIn s.queue ++ decoded s.tel ([] : List Str).flatten) := by
        intro q' hq'
        have hd : decoded s.tel ([] : List Str).flatten = [] := by simp [decoded, rxRun, keysOf]
        rw [hq', hd, List.append_nil, h1, keysIn_append, keysIn_append]
        constructor
        · show (k :: (keysIn a ++ keysIn b)).Perm (keysIn a ++ k :: keysIn b)
          exact List.perm_middle.symm
        · intro ho
          simp only [OneThread] at ho
          subst ho
          have : a = [] := List.length_eq_zero_iff.1 h2
          subst this
          rfl
      split at hs
      · split at hs
        · cases hs
        · rename_i q y _
          split at hs <;> cases hs
          · obtain ⟨k1, k2⟩ := key (s.queue.eraseIdx i ++ [.fail]) (by rw [h3, keysIn_append]; simp [keysIn])
            exact ⟨hq, ⟨rfl, rfl⟩, k1, k2⟩
          · obtain ⟨k1, k2⟩ := key (s.queue.eraseIdx i) (by rw [h3])
            exact ⟨hq, ⟨rfl, rfl⟩, k1, k2⟩
      · cases hs
    · rename_i d hk
      obtain ⟨a, b, h1, h2, h3⟩ := erase_keys hk
      have hka : keyAt s (.exec i alive) = [] := by simp [keyAt, hk]
      rw [hka]
      have hke : keysIn s.queue = keysIn (a ++ b) := by rw [h1, keysIn_append, keysIn_append]; rfl
      split at hs
      · rename_i hop
        have hda : dataAt s (.exec i alive) = [d] := by simp [dataAt, hk, hop]
        rw [hda, received_after] at *
        cases hs
        have hkeys : (after s.tel d).queue = decoded s.tel d := by simp [after, hq, decoded]
        have e : keysIn (s.queue.eraseIdx i ++ (after s.tel d).queue.map .key) = keysIn s.queue ++ decoded s.tel d := by
          rw [keysIn_append, keysIn_keys, hkeys, h3, hke]
        refine ⟨rfl, by simp [Decoder, after], ?_, fun _ => ?_⟩
        · simp only [List.nil_append, e, List.flatten_cons, List.flatten_nil, List.append_nil]; exact .refl _
        · simp only [List.nil_append, e, List.flatten_cons, List.flatten_nil, List.append_nil]
      · rename_i hop
        have hda : dataAt s (.exec i alive) = [] := by simp [dataAt, hop]
        rw [hda]
        cases hs
        refine ⟨hq, ⟨rfl, rfl⟩, ?_, fun _ => ?_⟩
        · simp only [List.nil_append, h3, hke]; simp [decoded, rxRun, keysOf]
        · simp only [List.nil_append, h3, hke]; simp [decoded, rxRun, keysOf]
    · rename_i hk
      obtain ⟨a, b, h1, h2, h3⟩ := erase_keys hk
      have hka : keyAt s (.exec i alive) = [] := by simp [keyAt, hk]
      have hda : dataAt s (.exec i alive) = [] := by simp [dataAt, hk]
      have hke : keysIn s.queue = keysIn (a ++ b) := by rw [h1, keysIn_append, keysIn_append]; rfl
      rw [hka, hda]
      cases hs
      refine ⟨hq, ⟨rfl, rfl⟩, ?_, fun _ => ?_⟩
      · simp only [List.nil_append, h3, hke]; simp [decoded, rxRun, keysOf]
      · simp only [List.nil_append, h3, hke]; simp [decoded, rxRun, keysOf]

theorem run_keys {A : App σ τ} {S : Server σ} {fuel : Nat} (es : List Net.Ev) : ∀ {s s' : Life σ τ}, Net.run A S fuel es s = .ok (some s') → s.tel.queue = [] →
    Decoder s.tel s'.tel (handled A S fuel es s).2.flatten ∧
    ((handled A S fuel es s).1 ++ keysIn s'.queue).Perm (keysIn s.queue ++ decoded s.tel (handled A S fuel es s).2.flatten) ∧
    ((∀ e ∈ es, OneThread e) → (handled A S fuel es s).1 ++ keysIn s'.queue = keysIn s.queue ++ decoded s.tel (handled A S fuel es s).2.flatten) := by
  induction es with
  | nil =>
    intro s s' h _
    cases h
    refine ⟨⟨rfl, rfl⟩, ?_, fun _ => ?_⟩ <;> simp [handled, decoded, rxRun, keysOf]
  | cons e es ih =>
    intro s s' h hq
    simp only [Net.run] at h
    cases hs : Net.step A S fuel s e with
    | error f => rw [hs] at h; cases h
    | ok r =>
      cases r with
      | none => rw [hs] at h; cases h
      | some r =>
        obtain ⟨s1, x⟩ := r
        rw [hs] at h
        simp only at h
        obtain ⟨a1, a2, a3, a4⟩ := step_keys hs hq
        obtain ⟨b2, b3, b4⟩ := ih h a1
        simp only [handled, hs, List.flatten_append]
        rw [decoded_append s.tel s1.tel _ _ a2]
        refine ⟨?_, ?_, ?_⟩
        · obtain ⟨c1, c2⟩ := a2
          obtain ⟨d1, d2⟩ := b2
          simp only [Decoder, rxRun_append, keysOf_append]
          rw [← c1, ← c2]
          exact ⟨d1, d2⟩
        · rw [List.append_assoc, ← List.append_assoc (keysIn s.queue)]
          refine (List.Perm.append_left _ b3).trans ?_
          rw [← List.append_assoc]
          exact List.Perm.append_right _ a3
        · intro ho
          have e1 := a4 (ho e (by simp))
          have e2 := b4 (fun e' he => ho e' (by simp [he]))
          rw [List.append_assoc, e2, ← List.append_assoc, e1, List.append_assoc]

theorem accept_fresh {A : App σ τ} {S : Server σ} {w : World σ τ} {io : Io} {s : Life σ τ} {x : Option Exn} (h : Net.start A S w io = .ok (s, x)) :
    s.tel.queue = [] ∧ s.queue = [] ∧ s.tel.rx = Telnet.Rx.init ∧ s.tel.step = .s1 := by
  simp only [Net.start] at h
  have key : ∀ {t : Tel (σ × Bool) τ} {x : Option Exn}, Telnet.accept A S w io = .ok (t, x) → t.queue = [] ∧ t.rx = Telnet.Rx.init ∧ t.step = .s1 := by
    intro t x h
    simp only [Telnet.accept, Telnet.connect, bind, Except.bind] at h
    split at h
    · cases h; exact ⟨rfl, rfl, rfl⟩
    · split at h
      · cases h
      · cases h; exact ⟨rfl, rfl, rfl⟩
  split at h
  · cases h
  · rename_i h'; cases h; exact ⟨(key h').1, rfl, (key h').2⟩
  · rename_i h'; cases h; exact ⟨(key h').1, rfl, (key h').2⟩

/-- At most one read operation is pending or completed. -/
def Single (s : Life σ τ) : Prop := (s.op = true → readsIn s.queue = []) ∧ (readsIn s.queue).length ≤ 1

theorem step_reads {A : App σ τ} {S : Server σ} {fuel : Nat} {s s' : Life σ τ} {e : Net.Ev} {x : Option Exn} (hs : Net.step A S fuel s e = .ok (some (s', x))) (h : Single s) :
    Single s' ∧ (s'.tel.proc.w.app.2 = true → s.tel.proc.w.app.2 = true ∧ dataAt s e ++ readsIn s'.queue = readsIn s.queue ++ arrivals [e]) := by
  cases e with
  | arrive d =>
    simp only [Net.step] at hs
    split at hs <;> cases hs
    rename_i ho
    have hr := h.1 ho
    have e : readsIn (s.queue ++ [.read d]) = [d] := by rw [readsIn_append, hr]; rfl
    refine ⟨⟨(fun o => by cases o), by simp [e]⟩, fun o => ⟨o, ?_⟩⟩
    simp only [e, hr]; rfl
  | lost =>
    simp only [Net.step] at hs
    split at hs <;> cases hs
    rename_i ho
    have hr := h.1 ho
    have e : readsIn (s.queue ++ [.fail]) = [] := by rw [readsIn_append, hr]; rfl
    refine ⟨⟨(fun o => by cases o), by simp only [e]; decide⟩, fun o => ⟨o, ?_⟩⟩
    simp only [e, hr]; rfl
  | exec i alive =>
    simp only [Net.step] at hs
    split at hs
    · cases hs
    · rename_i k hk
      obtain ⟨a, b, h1, h2, h3⟩ := erase_keys hk
      have hda : dataAt s (.exec i alive) = [] := by simp [dataAt, hk]
      have hre : readsIn s.queue = readsIn (a ++ b) := by rw [h1, readsIn_append, readsIn_append]; rfl
      split at hs
      · split at hs
        · cases hs
        · rename_i q y hkp
          have hcl : q.w.app.2 = true → s.tel.proc.w.app.2 = true := by
            intro ho
            cases hc : s.tel.proc.w.app.2 with
            | true => rfl
            | false => rw [keypressed_closed A S.exitAction alive hkp hc] at ho; cases ho
          split at hs <;> cases hs
          · have e : readsIn (s.queue.eraseIdx i ++ [.fail]) = readsIn s.queue := by rw [h3, readsIn_append, hre]; simp [readsIn]
            refine ⟨⟨(fun o => by cases o), by simp only [e]; exact h.2⟩, fun o => ⟨hcl o, ?_⟩⟩
            rw [hda]; simp only [e]; simp [arrivals]
          · have e : readsIn (s.queue.eraseIdx i) = readsIn s.queue := by rw [h3, hre]
            refine ⟨⟨fun o => by simp only [e]; exact h.1 o, by simp only [e]; exact h.2⟩, fun o => ⟨hcl o, ?_⟩⟩
            rw [hda]; simp only [e]; simp [arrivals]
      · cases hs
    · rename_i d hk
      obtain ⟨a, b, h1, h2, h3⟩ := erase_keys hk
      have hre : readsIn s.queue = readsIn a ++ d :: readsIn b := by rw [h1, readsIn_append]; rfl
      have hl := h.2
      rw [hre] at hl
      have ha : readsIn a = [] := by cases ha : readsIn a with | nil => rfl | cons _ _ => rw [ha] at hl; simp at hl
      have hb : readsIn b = [] := by cases hb : readsIn b with | nil => rfl | cons _ _ => rw [ha, hb] at hl; simp at hl
      have e : readsIn (s.queue.eraseIdx i) = [] := by rw [h3, readsIn_append, ha, hb]; rfl
      split at hs
      · rename_i hop
        have hda : dataAt s (.exec i alive) = [d] := by simp [dataAt, hk, hop]
        rw [received_after] at hs
        cases hs
        have e' : readsIn (s.queue.eraseIdx i ++ (after s.tel d).queue.map .key) = [] := by rw [readsIn_append, readsIn_keys, e]; rfl
        refine ⟨⟨fun _ => e', by simp only [e']; decide⟩, fun o => ⟨hop, ?_⟩⟩
        rw [hda]; simp only [e', hre, ha, hb]; rfl
      · rename_i hop
        cases hs
        refine ⟨⟨fun _ => e, by simp only [e]; decide⟩, fun o => absurd o hop⟩
    · rename_i hk
      obtain ⟨a, b, h1, h2, h3⟩ := erase_keys hk
      have hda : dataAt s (.exec i alive) = [] := by simp [dataAt, hk]
      have e : readsIn (s.queue.eraseIdx i) = readsIn s.queue := by rw [h3, h1, readsIn_append, readsIn_append]; rfl
      cases hs
      refine ⟨⟨fun o => by simp only [e]; exact h.1 o, by simp only [e]; exact h.2⟩, fun o => ⟨o, ?_⟩⟩
      rw [hda]; simp only [e]; simp [arrivals]

theorem run_reads {A : App σ τ} {S : Server σ} {fuel : Nat} (es : List Net.Ev) : ∀ {s s' : Life σ τ}, Net.run A S fuel es s = .ok (some s') → Single s →
    s'.tel.proc.w.app.2 = true → s.tel.proc.w.app.2 = true ∧ (handled A S fuel es s).2 ++ readsIn s'.queue = readsIn s.queue ++ arrivals es := by
  induction es with
  | nil => intro s s' h _ ho; cases h; exact ⟨ho, by simp [handled, arrivals]⟩
  | cons e es ih =>
    intro s s' h hS ho
    simp only [Net.run] at h
    cases hs : Net.step A S fuel s e with
    | error f => rw [hs] at h; cases h
    | ok r =>
      cases r with
      | none => rw [hs] at h; cases h
      | some r =>
        obtain ⟨s1, x⟩ := r
        rw [hs] at h
        simp only at h
        obtain ⟨a1, a2⟩ := step_reads hs hS
        obtain ⟨b1, b2⟩ := ih h a1 ho
        obtain ⟨c1, c2⟩ := a2 b1
        refine ⟨c1, ?_⟩
        simp only [handled, hs]
        rw [List.append_assoc, b2, ← List.append_assoc, c2, List.append_assoc]
        show _ ++ (arrivals [e] ++ arrivals es) = _ ++ arrivals ([e] ++ es)
        rw [arrivals, List.filterMap_append]

/-- **C78** However many threads run the scheduler, no data and no key of a session whose connection is open are lost or made up: what has been decoded, and what has been read and is to be decoded, are the data sent by the
    client, in order; and the keys that have been handled, together with those in the queue, are the ones that the decoded data say (as a multiset). -/
theorem C78_nothing_lost (A : App σ τ) (S : Server σ) (fuel : Nat) (w : World σ τ) (io : Io) (s0 s : Life σ τ) (x : Option Exn) (es : List Net.Ev) (h0 : Net.start A S w io = .ok (s0, x))
    (h : Net.run A S fuel es s0 = .ok (some s)) :
    (s.tel.proc.w.app.2 = true → (handled A S fuel es s0).2 ++ readsIn s.queue = arrivals es) ∧
    ((handled A S fuel es s0).1 ++ keysIn s.queue).Perm (keysOf .s1 (rxRun Telnet.Rx.init (handled A S fuel es s0).2.flatten).2.data).2 := by
  obtain ⟨q1, q2, q3, q4⟩ := accept_fresh h0
  refine ⟨fun ho => ?_, ?_⟩
  · have := (run_reads es h ⟨fun _ => by rw [q2]; rfl, by rw [q2]; decide⟩ ho).2
    rw [q2] at this
    exact this
  · have := (run_keys es h q1).2.1
    rw [q2] at this
    simpa [decoded, q3, q4, keysIn] using this

/-- **C49** (part) If one thread runs the scheduler, the keys of a session are handled in the order in which they were typed. Missing: several threads (`C78_nothing_lost`, which says nothing on the order). -/
theorem C49_order_partial (A : App σ τ) (S : Server σ) (fuel : Nat) (w : World σ τ) (io : Io) (s0 s : Life σ τ) (x : Option Exn) (es : List Net.Ev) (h0 : Net.start A S w io = .ok (s0, x))
    (h : Net.run A S fuel es s0 = .ok (some s)) (ho : ∀ e ∈ es, OneThread e) :
    (handled A S fuel es s0).1 ++ keysIn s.queue = (keysOf .s1 (rxRun Telnet.Rx.init (handled A S fuel es s0).2.flatten).2.data).2 := by
  obtain ⟨q1, q2, q3, q4⟩ := accept_fresh h0
  have := (run_keys es h q1).2.2 ho
  rw [q2] at this
  simpa [decoded, q3, q4, keysIn] using this

/-- **C49** Refuted with two threads: two characters may be handled in the wrong order, and the wrong line is executed. -/
theorem C49_threads_refuted : ∃ s0 s, Net.start Sample.app server0 Sample.world Sample.io = .ok (s0, none) ∧
    Net.run Sample.app server0 3 ([.arrive bs!"ab", .exec 0 true, .exec 1 true, .exec 0 true]) s0 = .ok (some s) ∧
    (handled Sample.app server0 3 [.arrive bs!"ab", .exec 0 true, .exec 1 true, .exec 0 true] s0).1 = [.ascii b%'b', .ascii b%'a'] ∧ s.tel.proc.term.line = bs!"ba" := ⟨_, _, rfl, rfl, rfl, rfl⟩

/-- Data arrive while keys are in the queue. -/
example : ∃ s0 s, Net.start Sample.app server0 Sample.world Sample.io = .ok (s0, none) ∧
    Net.run Sample.app server0 3 [.arrive bs!"ab", .exec 0 true, .arrive bs!"cd", .exec 0 true, .exec 1 true] s0 = .ok (some s) ∧ s.tel.proc.w.app.2 = true ∧
    keysIn s.queue = [.ascii b%'b', .ascii b%'c', .ascii b%'d'] := ⟨_, _, rfl, rfl, rfl, rfl⟩

end Verif.Props
