import Verif.Model.Net
import Verif.Props.AfterExit
import Verif.Props.Processor

set_option linter.unusedSimpArgs false

/-!
# Properties C78–C81: the life of telnet sessions and of the server
-/

namespace Verif.Props
open Spec Net
open Terminal (Key)
open Telnet (Tel Server telnetApp)

variable {σ τ : Type}

/-! ### What a key press does to the state of a session -/

theorem sgr_colour (io : Io) (n : Nat) : (io.sgr n).style.color = io.style.color := by unfold Io.sgr; split <;> rfl
theorem beforeInput_colour (io : Io) : io.beforeInput.style.color = io.style.color := by
  unfold Io.beforeInput; split
  · rw [sgr_colour]; rfl
  · rfl
theorem beforePrompt_colour (io : Io) : io.beforePrompt.style.color = io.style.color := by
  unfold Io.beforePrompt; split
  · rw [sgr_colour, sgr_colour]; rfl
  · rfl
theorem put_colour (io : Io) (s : Str) : (io.put s).style.color = io.style.color := rfl

theorem setLine_colour (t : Terminal.Term) (io : Io) (s : Str) : (Terminal.setLine t io s).2.style.color = io.style.color := by
  simp only [Terminal.setLine]
  split <;> simp only [put_colour, Io.afterInput, sgr_colour, beforeInput_colour]

theorem key_colour {t t' : Terminal.Term} {io io' : Io} {k : Key} {s : Terminal.Symbol} (h : Terminal.keypressed t io k = .ok (t', io', s)) : io'.style.color = io.style.color := by
  cases k with
  | eof | up | down | clear | ignored => cases h; rfl
  | ret | home => cases h; rfl
  | left => simp only [Terminal.keypressed] at h; split at h <;> cases h <;> rfl
  | right =>
    simp only [Terminal.keypressed] at h
    split at h <;> cases h
    · simp only [put_colour, Io.afterInput, sgr_colour, beforeInput_colour]
    · rfl
  | backspace =>
    simp only [Terminal.keypressed, bind, Except.bind] at h
    split at h
    · cases h; rfl
    · split at h
      · cases h
      · split at h
        · cases h
        · split at h
          · cases h
          · cases h; rfl
  | canc =>
    simp only [Terminal.keypressed, bind, Except.bind] at h
    split at h
    · cases h; rfl
    · split at h
      · cases h
      · split at h
        · cases h
        · split at h
          · cases h
          · cases h; rfl
  | ascii c =>
    simp only [Terminal.keypressed, bind, Except.bind] at h
    split at h
    · cases h; rfl
    · split at h
      · cases h
      · split at h
        · cases h
        · split at h
          · cases h
          · cases h; simp only [put_colour, Io.afterInput, sgr_colour, beforeInput_colour]
  | «end» =>
    simp only [Terminal.keypressed, bind, Except.bind] at h
    split at h
    · cases h
    · cases h; simp only [put_colour, Io.afterInput, sgr_colour, beforeInput_colour]

theorem prompt_frame {R : World σ τ → World σ τ → Prop} (hio : ∀ (w : World σ τ) io, io.style.color = w.io.style.color → R w { w with io := io }) {w w' : World σ τ} (h : prompt w = .ok w') : R w w' := by
  unfold prompt at h
  split at h
  · cases h; exact hio w w.io rfl
  · split at h
    · cases h; exact hio _ _ (by simp only [put_colour, Io.afterPrompt, sgr_colour, beforePrompt_colour])
    · cases h

theorem redraw_frame {R : World σ τ → World σ τ → Prop} (ht : ∀ {a b c}, R a b → R b c → R a c) (hio : ∀ (w : World σ τ) io, io.style.color = w.io.style.color → R w { w with io := io }) {p q : Processor.Proc σ τ} {l : Str}
    (h : Processor.redraw p l = .ok q) : R p.w q.w := by
  simp only [Processor.redraw, bind, Except.bind] at h
  split at h
  · cases h
  · rename_i w hp
    cases h
    exact ht (prompt_frame hio hp) (hio _ _ (setLine_colour _ _ _))

/-- A relation that holds for the parts of `Feed` and `Exit`, and for changes of the output and of the history, holds for key presses. -/
theorem keypressed_frame {A : App σ τ} {R : World σ τ → World σ τ → Prop} (C : Closed A R) (hh : ∀ (w : World σ τ) h, R w { w with hist := h }) (hio : ∀ (w : World σ τ) io, io.style.color = w.io.style.color → R w { w with io := io })
    {fuel : Nat} {p q : Processor.Proc σ τ} {k : Key} {x : Option Exn} (h : Processor.keypressed A fuel p k = .ok (q, x)) : R p.w q.w := by
  unfold Processor.keypressed at h
  simp only [bind, Except.bind] at h
  split at h
  · cases h
  · rename_i r hr
    obtain ⟨t, io, s⟩ := r
    refine C.trans (hio p.w io (key_colour hr)) ?_
    cases s with
    | nothing => simp only [Processor.newCommand] at h; cases h; exact C.refl _
    | eof =>
      simp only [Processor.newCommand, bind, Except.bind] at h
      split at h
      · cases h
      · rename_i v hv
        obtain ⟨w, x⟩ := v
        cases h
        exact closed_exit C _ _ _ hv
    | command s =>
      simp only [Processor.newCommand, bind, Except.bind] at h
      split at h
      · cases h
      · rename_i v hv
        obtain ⟨w, x⟩ := v
        have q1 := closed_feed C hh _ _ _ _ _ hv
        cases x with
        | some e => cases h; exact q1
        | none =>
          simp only at h
          split at h
          · cases h
          · rename_i w2 hp
            cases h
            exact C.trans q1 (prompt_frame hio hp)
    | down =>
      simp only [Processor.newCommand, bind, Except.bind] at h
      split at h
      · cases h
      · cases h
        exact C.trans (hh _ _) (hio _ _ (setLine_colour _ _ _))
    | up =>
      simp only [Processor.newCommand, bind, Except.bind] at h
      split at h
      · cases h
      · cases h
        exact C.trans (hh _ _) (hio _ _ (setLine_colour _ _ _))
    | tab =>
      simp only [Processor.newCommand, bind, Except.bind] at h
      split at h
      · cases h
      · rename_i q hq
        cases h
        obtain ⟨_, _, hc⟩ := tab_cases A hq
        rcases hc with ⟨_, rfl⟩ | ⟨c, _, rfl⟩ | ⟨_, pre, _, ⟨_, rfl⟩ | ⟨_, h4⟩⟩
        · exact C.refl _
        · exact hio _ _ (setLine_colour _ _ _)
        · exact hio _ _ (setLine_colour _ _ _)
        · have q1 := redraw_frame (R := R) C.trans hio h4
          refine C.trans ?_ q1
          exact hio _ _ rfl
    | clear =>
      simp only [Processor.newCommand, bind, Except.bind] at h
      split at h
      · cases h
      · rename_i q hq
        cases h
        have q1 := redraw_frame (R := R) C.trans hio hq
        refine C.trans ?_ q1
        exact hio _ _ rfl

/-- A closed socket stays closed. -/
theorem keypressed_closed (A : App σ τ) (server : Option (σ → Effect σ)) (alive : Bool) {fuel : Nat} {p q : Processor.Proc (σ × Bool) τ} {k : Key} {x : Option Exn}
    (h : Processor.keypressed (telnetApp A server alive) fuel p k = .ok (q, x)) (hc : p.w.app.2 = false) : q.w.app.2 = false :=
  keypressed_frame (closed_staysClosed A server alive) (fun _ _ h => h) (fun _ _ _ h => h) h hc

theorem byte_app {t t' : Tel (σ × Bool) τ} {c : Byte} (h : Telnet.byte t c = .ok t') : t'.proc.w.app = t.proc.w.app := by
  simp only [Telnet.byte, bind, Except.bind] at h
  split at h
  · cases h
  · split at h
    · split at h <;> cases h <;> rfl
    · cases h; rfl

theorem received_app {d : Str} : ∀ {t t' : Tel (σ × Bool) τ}, Telnet.received t d = .ok t' → t'.proc.w.app = t.proc.w.app := by
  induction d with
  | nil => intro t t' h; cases h; rfl
  | cons c d ih =>
    intro t t' h
    simp only [Telnet.received, bind, Except.bind] at h
    split at h
    · cases h
    · rename_i t1 h1
      rw [ih h, byte_app h1]

/-! ### C78 -/

/-- Executed by one thread, in the order of the queue. -/
def OneThread (e : Net.Ev) : Prop :=
  match e with
  | .exec i _ => i = 0
  | _ => True

/-- The queue holds keys, followed by the handler of the read operation if it has completed; with a closed socket there is no operation in progress. -/
structure Orderly (s : Life σ τ) : Prop where
  shape : ∃ ks : List Key, (s.op = true ∧ s.queue = ks.map .key) ∨ (s.op = false ∧ ((ks = [] ∧ s.queue = []) ∨ ∃ t : Task, t.owns = true ∧ s.queue = ks.map .key ++ [t]))
  closed : s.tel.proc.w.app.2 = false → s.op = false

theorem orderly_step {A : App σ τ} {S : Server σ} {fuel : Nat} {s s' : Life σ τ} {e : Net.Ev} {x : Option Exn} (h : Orderly s) (he : OneThread e)
    (hs : Net.step A S fuel s e = .ok (some (s', x))) : Orderly s' := by
  obtain ⟨⟨ks, hq⟩, hc⟩ := h
  cases e with
  | arrive d =>
    simp only [Net.step] at hs
    split at hs <;> cases hs
    rename_i ho
    rcases hq with ⟨_, h2⟩ | ⟨h1, _⟩
    · exact ⟨⟨ks, .inr ⟨rfl, .inr ⟨_, rfl, by rw [h2]⟩⟩⟩, fun _ => rfl⟩
    · rw [ho] at h1; cases h1
  | lost =>
    simp only [Net.step] at hs
    split at hs <;> cases hs
    rename_i ho
    rcases hq with ⟨_, h2⟩ | ⟨h1, _⟩
    · exact ⟨⟨ks, .inr ⟨rfl, .inr ⟨_, rfl, by rw [h2]⟩⟩⟩, fun _ => rfl⟩
    · rw [ho] at h1; cases h1
  | exec i alive =>
    cases (show i = 0 from he)
    simp only [Net.step] at hs
    split at hs
    · cases hs
    · rename_i k hk
      -- a key
      have htail : ∃ ks' : List Key, ks = k :: ks' := by
        rcases hq with ⟨_, h2⟩ | ⟨_, ⟨_, h2⟩ | ⟨t, ht, h2⟩⟩
        · rw [h2] at hk
          cases ks with
          | nil => cases hk
          | cons a ks => simp at hk; exact ⟨ks, by rw [hk]⟩
        · rw [h2] at hk; cases hk
        · rw [h2] at hk
          cases ks with
          | nil => simp at hk; rw [hk] at ht; cases ht
          | cons a ks => simp at hk; exact ⟨ks, by rw [hk]⟩
      obtain ⟨ks', rfl⟩ := htail
      split at hs
      · split at hs
        · cases hs
        · rename_i q x' hkp
          have hcl := fun h => keypressed_closed A S.exitAction alive hkp h
          split at hs
          · rename_i hcond
            cases hs
            simp only [Bool.and_eq_true] at hcond
            refine ⟨⟨ks', .inr ⟨rfl, .inr ⟨.fail, rfl, ?_⟩⟩⟩, fun _ => rfl⟩
            rcases hq with ⟨_, h2⟩ | ⟨h1, _⟩
            · simp [h2]
            · rw [hcond.2] at h1; cases h1
          · rename_i hcond
            cases hs
            refine ⟨⟨ks', ?_⟩, ?_⟩
            · rcases hq with ⟨h1, h2⟩ | ⟨h1, ⟨h0, _⟩ | ⟨t, ht, h2⟩⟩
              · exact .inl ⟨h1, by simp [h2]⟩
              · cases h0
              · exact .inr ⟨h1, .inr ⟨t, ht, by simp [h2]⟩⟩
            · intro hcl'
              simp only at hcl' ⊢
              cases ho : s.op with
              | false => rfl
              | true =>
                cases hop : s.tel.proc.w.app.2 with
                | false => rw [hc hop] at ho; cases ho
                | true => simp [ho, hop, hcl'] at hcond
      · cases hs
    · rename_i d hd
      -- data
      have hk : s.op = false ∧ s.queue = [.read d] := by
        rcases hq with ⟨_, h2⟩ | ⟨h1, ⟨_, h2⟩ | ⟨t, ht, h2⟩⟩
        · rw [h2] at hd
          cases ks with
          | nil => cases hd
          | cons a ks => simp at hd
        · rw [h2] at hd; cases hd
        · rw [h2] at hd
          cases ks with
          | nil => simp at hd; exact ⟨h1, by rw [h2, hd]; rfl⟩
          | cons a ks => simp at hd
      split at hs
      · rename_i hopen
        split at hs
        · cases hs
        · rename_i t ht
          cases hs
          refine ⟨⟨t.queue, .inl ⟨rfl, by simp [hk.2]⟩⟩, ?_⟩
          intro hcl
          simp only [received_app ht] at hcl
          rw [hopen] at hcl; cases hcl
      · cases hs
        exact ⟨⟨[], .inr ⟨hk.1, .inl ⟨rfl, by simp [hk.2]⟩⟩⟩, hc⟩
    · rename_i hd
      cases hs
      have hk : s.op = false ∧ s.queue = [.fail] := by
        rcases hq with ⟨_, h2⟩ | ⟨h1, ⟨_, h2⟩ | ⟨t, ht, h2⟩⟩
        · rw [h2] at hd
          cases ks with
          | nil => cases hd
          | cons a ks => simp at hd
        · rw [h2] at hd; cases hd
        · rw [h2] at hd
          cases ks with
          | nil => simp at hd; exact ⟨h1, by rw [h2, hd]; rfl⟩
          | cons a ks => simp at hd
      exact ⟨⟨[], .inr ⟨hk.1, .inl ⟨rfl, by simp [hk.2]⟩⟩⟩, hc⟩

theorem orderly_run {A : App σ τ} {S : Server σ} {fuel : Nat} (es : List Net.Ev) : ∀ {s s' : Life σ τ}, Orderly s → (∀ e ∈ es, OneThread e) → Net.run A S fuel es s = .ok (some s') → Orderly s' := by
  induction es with
  | nil => intro s s' h _ hs; cases hs; exact h
  | cons e es ih =>
    intro s s' h he hs
    simp only [Net.run] at hs
    split at hs
    · cases hs
    · cases hs
    · rename_i s1 x h1
      exact ih (orderly_step h (he e (by simp)) h1) (fun e h => he e (by simp [h])) hs

theorem orderly_start {A : App σ τ} {S : Server σ} {w : World σ τ} {io : Io} {s : Life σ τ} {x : Option Exn} (hx : (does A.enterGlobal w.app).exn = none) (h : Net.start A S w io = .ok (s, x)) :
    Orderly s ∧ x = none ∧ s.op = true := by
  unfold Net.start at h
  split at h
  · cases h
  · rename_i t e ht
    obtain ⟨g, _⟩ := C75_telnet_partial A S w io hx t _ ht
    cases g
  · rename_i t ht
    cases h
    obtain ⟨_, g, _⟩ := C75_telnet_partial A S w io hx t _ ht
    exact ⟨⟨⟨[], .inl ⟨rfl, rfl⟩⟩, fun hc => by rw [g] at hc; cases hc⟩, rfl, rfl⟩

/-- **C78** (part) If one thread runs the scheduler, a telnet session exists whenever one of its key presses is executed, and it is destroyed only when nothing in the queue refers to it; whatever the client sends, whenever it
    disconnects, and whatever the commands do. Missing: several threads (refuted below). -/
theorem C78_exists_partial (A : App σ τ) (S : Server σ) (fuel : Nat) (w : World σ τ) (io : Io) (s0 s : Life σ τ) (x : Option Exn) (es : List Net.Ev) (hx : (does A.enterGlobal w.app).exn = none)
    (h0 : Net.start A S w io = .ok (s0, x)) (he : ∀ e ∈ es, OneThread e) (h : Net.run A S fuel es s0 = .ok (some s)) :
    (∀ k rest, s.queue = .key k :: rest → owned s.op rest = true) ∧ (owned s.op s.queue = false → s.queue = []) := by
  obtain ⟨⟨ks, hq⟩, _⟩ := orderly_run es (orderly_start hx h0).1 he h
  constructor
  · intro k rest hr
    rcases hq with ⟨h1, _⟩ | ⟨_, ⟨_, h2⟩ | ⟨t, ht, h2⟩⟩
    · simp [owned, h1]
    · rw [hr] at h2; cases h2
    · rw [hr] at h2
      cases ks with
      | nil => simp at h2; rw [← h2.1] at ht; cases ht
      | cons a ks =>
        simp at h2
        simp [owned, h2.2, ht]
  · intro ho
    rcases hq with ⟨h1, _⟩ | ⟨_, ⟨_, h2⟩ | ⟨t, ht, h2⟩⟩
    · simp [owned, h1] at ho
    · exact h2
    · simp [owned, h2, ht] at ho

/-- **C78** (part) With one thread, undefined behaviour occurs only within a key press or the decoding of data, never because the session has been destroyed: there is a step at which the session exists and the fault is that of the
    processor (commands, see C20, C26, C27, C37) or of the decoder (C46). -/
theorem C78_faults_partial (A : App σ τ) (S : Server σ) (fuel : Nat) (w : World σ τ) (io : Io) (s0 : Life σ τ) (x : Option Exn) (es : List Net.Ev) (hx : (does A.enterGlobal w.app).exn = none)
    (h0 : Net.start A S w io = .ok (s0, x)) (he : ∀ e ∈ es, OneThread e) (f : Fault) (h : Net.run A S fuel es s0 = .error f) :
    ∃ pre s, pre <+: es ∧ Net.run A S fuel pre s0 = .ok (some s) ∧ owned s.op s.queue = true ∧
      ((∃ k rest alive, s.queue = .key k :: rest ∧ Processor.keypressed (telnetApp A S.exitAction alive) fuel s.tel.proc k = .error f) ∨
       (∃ d rest, s.queue = .read d :: rest ∧ Telnet.received s.tel d = .error f)) := by
  have main : ∀ (es : List Net.Ev) (s0 : Life σ τ), Orderly s0 → (∀ e ∈ es, OneThread e) → Net.run A S fuel es s0 = .error f →
      ∃ pre s, pre <+: es ∧ Net.run A S fuel pre s0 = .ok (some s) ∧ owned s.op s.queue = true ∧
      ((∃ k rest alive, s.queue = .key k :: rest ∧ Processor.keypressed (telnetApp A S.exitAction alive) fuel s.tel.proc k = .error f) ∨
       (∃ d rest, s.queue = .read d :: rest ∧ Telnet.received s.tel d = .error f)) := by
    intro es
    induction es with
    | nil => intro s0 _ _ h; cases h
    | cons e es ih =>
      intro s0 ho he h
      simp only [Net.run] at h
      cases hs : Net.step A S fuel s0 e with
      | ok r =>
        rw [hs] at h
        cases r with
        | none => cases h
        | some r =>
          obtain ⟨s1, x1⟩ := r
          obtain ⟨pre, s, hp, hr, hrest⟩ := ih s1 (orderly_step ho (he e (by simp)) hs) (fun e h => he e (by simp [h])) h
          refine ⟨e :: pre, s, ?_, ?_, hrest⟩
          · obtain ⟨t, ht⟩ := hp
            exact ⟨t, by simp [ht]⟩
          · simp only [Net.run, hs]; exact hr
      | error g =>
        rw [hs] at h
        cases h
        refine ⟨[], s0, by simp, rfl, ?_⟩
        obtain ⟨⟨ks, hq⟩, hc⟩ := ho
        have own : s0.queue ≠ [] → owned s0.op s0.queue = true := by
          intro hne
          rcases hq with ⟨h1, _⟩ | ⟨_, ⟨_, h2⟩ | ⟨t, ht, h2⟩⟩
          · simp [owned, h1]
          · exact absurd h2 hne
          · simp [owned, h2, ht]
        cases e with
        | arrive d => simp only [Net.step] at hs; split at hs <;> cases hs
        | lost => simp only [Net.step] at hs; split at hs <;> cases hs
        | exec i alive =>
          cases (show i = 0 from he (.exec i alive) (by simp))
          simp only [Net.step] at hs
          cases hqq : s0.queue with
          | nil => rw [hqq] at hs; cases hs
          | cons t rest =>
            have how := own (by rw [hqq]; simp)
            rw [hqq] at hs how
            cases t with
            | key k =>
              refine ⟨how, .inl ⟨k, rest, alive, rfl, ?_⟩⟩
              have hrest : owned s0.op rest = true := by simpa [owned, Task.owns] using how
              simp only [List.getElem?_cons_zero, List.eraseIdx_zero, List.tail_cons, hrest, if_true] at hs
              split at hs
              · rename_i f' hk; cases hs; exact hk
              · split at hs <;> cases hs
            | read d =>
              refine ⟨how, .inr ⟨d, rest, rfl, ?_⟩⟩
              simp only [List.getElem?_cons_zero] at hs
              split at hs
              · split at hs
                · rename_i f' hk; cases hs; exact hk
                · cases hs
              · cases hs
            | fail => simp only [List.getElem?_cons_zero] at hs; cases hs
  exact main es s0 (orderly_start hx h0).1 he h

/-- A connection of the sample application, with an exit action. -/
def life0 : Life (List Nat) (List Str) := ⟨⟨Telnet.Rx.init, .s1, [], ⟨online Sample.world, ⟨[], 0⟩, true⟩⟩, [], true⟩
def server0 : Server (List Nat) := ⟨none, some (fun s => ⟨s, [], none⟩), 9⟩

/-- What can be seen of a connection: the calls, whether the socket is open, the number of entries in the queue, whether the session exists. -/
def netView (r : Except Fault (Option (Life (List Nat) (List Str)))) : Option ((List Nat × Bool) × (Nat × Bool)) :=
  match r with
  | .ok (some s) => some ((s.tel.proc.w.app.1, s.tel.proc.w.app.2), (s.queue.length, owned s.op s.queue))
  | _ => none

/-- A command, and the client is gone at once; the command is executed, then the session is destroyed. -/
example : netView (Net.run Sample.app server0 3 ([.arrive (bs!"any" ++ [13, 0]), .exec 0 true, .lost] ++ List.replicate 4 (.exec 0 true)) life0) = some (([5], true), (1, true)) := by decide +kernel
example : netView (Net.run Sample.app server0 3 ([.arrive (bs!"any" ++ [13, 0]), .exec 0 true, .lost] ++ List.replicate 5 (.exec 0 true)) life0) = some (([5], true), (0, false)) := by decide +kernel
example : ∃ r, Net.start Sample.app server0 Sample.world Sample.io = .ok r ∧ r.2 = none := ⟨_, rfl, rfl⟩

/-- A command that removes the menu in which the session is (C20): the prompt after it is the fault. -/
example : Net.run Sample.tame server0 3 ([.arrive (bs!"sub" ++ [13, 0] ++ bs!"drop" ++ [13, 0]), .exec 0 true] ++ List.replicate 9 (.exec 0 true)) life0 = .error (.ub .dangling) := by rfl

/-- **C78 refuted** With two threads, one may have taken a key press out of the queue while the other one executes the last handler of the read operation: the session is destroyed, then the key press is executed. -/
theorem C78_threads_refuted : ∃ s, Net.start Sample.app server0 Sample.world Sample.io = .ok (s, none) ∧
    Net.run Sample.app server0 3 [.arrive bs!"a", .exec 0 true, .lost, .exec 1 true, .exec 0 true] s = .error (.ub .dangling) := ⟨_, rfl, rfl⟩

/-! ### C79 -/

/-- The connection is at its end: the client has closed it or reading has failed, or the server has closed the socket. -/
def Over (s : Life σ τ) : Prop := (s.op = false ∧ s.queue.getLast? = some .fail) ∨ s.tel.proc.w.app.2 = false ∨ (s.op = false ∧ s.queue = [])

theorem over_step {A : App σ τ} {S : Server σ} {fuel : Nat} {s s' : Life σ τ} {e : Net.Ev} {x : Option Exn} (h : Orderly s) (ho : Over s) (he : OneThread e)
    (hs : Net.step A S fuel s e = .ok (some (s', x))) : Over s' ∧ s'.queue.length + 1 = s.queue.length := by
  have hop : s.op = false := by
    rcases ho with ⟨h1, _⟩ | h1 | ⟨h1, _⟩
    · exact h1
    · exact h.closed h1
    · exact h1
  cases e with
  | arrive d => simp [Net.step, hop] at hs
  | lost => simp [Net.step, hop] at hs
  | exec i alive =>
    cases (show i = 0 from he)
    have last : ∀ t rest, s.queue = t :: rest → s.queue.getLast? = some .fail → rest ≠ [] → rest.getLast? = some .fail := by
      intro t rest hr hl hne
      rw [hr, List.getLast?_cons] at hl
      obtain ⟨a, ha⟩ := List.getLast?_isSome.2 hne |> Option.isSome_iff_exists.1
      rw [ha] at hl ⊢
      simpa using hl
    cases hq : s.queue with
    | nil => simp [Net.step, hq] at hs
    | cons t rest =>
      have keep : ∀ (tel : Tel (σ × Bool) τ), (s.tel.proc.w.app.2 = false → tel.proc.w.app.2 = false) → Over (⟨tel, rest, s.op⟩ : Life σ τ) := by
        intro tel ht
        rcases ho with ⟨h1, h2⟩ | h1 | ⟨h1, h2⟩
        · by_cases hne : rest = []
          · exact .inr (.inr ⟨h1, hne⟩)
          · exact .inl ⟨h1, last t rest hq h2 hne⟩
        · exact .inr (.inl (ht h1))
        · rw [hq] at h2; cases h2
      simp only [Net.step, hq, List.getElem?_cons_zero, List.eraseIdx_zero, List.tail_cons] at hs
      cases t with
      | key k =>
        simp only at hs
        split at hs
        · split at hs
          · cases hs
          · rename_i q x' hkp
            simp only [hop, Bool.and_false, Bool.false_eq_true, if_false] at hs
            cases hs
            refine ⟨?_, by simp⟩
            have := keep { s.tel with proc := q } (fun h => keypressed_closed A S.exitAction alive hkp h)
            rw [hop] at this; exact this
        · cases hs
      | read d =>
        have hrest : rest = [] := by
          obtain ⟨⟨ks, hsh⟩, _⟩ := h
          rcases hsh with ⟨h1, _⟩ | ⟨_, ⟨_, h2⟩ | ⟨t, ht, h2⟩⟩
          · rw [hop] at h1; cases h1
          · rw [hq] at h2; cases h2
          · rw [hq] at h2
            cases ks with
            | nil => simp at h2; exact h2.2
            | cons a ks => simp at h2
        have hcl : s.tel.proc.w.app.2 = false := by
          rcases ho with ⟨_, h2⟩ | h1 | ⟨_, h2⟩
          · rw [hq, hrest] at h2; simp at h2
          · exact h1
          · rw [hq] at h2; cases h2
        simp only [hcl, Bool.false_eq_true, if_false] at hs
        cases hs
        exact ⟨.inr (.inl hcl), by simp⟩
      | fail =>
        cases hs
        exact ⟨keep s.tel id, by simp⟩

/-- **C79** When the client has gone, or the session has closed the connection (C50), the session is destroyed as soon as the keys received by then have been handled: that is after as many steps as there are entries in its queue;
    the scheduler can always take the next one, and nothing else can happen to the session. -/
theorem C79_destroyed (A : App σ τ) (S : Server σ) (fuel : Nat) (w : World σ τ) (io : Io) (s0 s : Life σ τ) (x : Option Exn) (es : List Net.Ev) (hx : (does A.enterGlobal w.app).exn = none)
    (h0 : Net.start A S w io = .ok (s0, x)) (he : ∀ e ∈ es, OneThread e) (h : Net.run A S fuel es s0 = .ok (some s)) (ho : Over s) :
    (∀ es' s', (∀ e ∈ es', OneThread e) → Net.run A S fuel es' s = .ok (some s') → es'.length + s'.queue.length = s.queue.length ∧ (s'.queue = [] → owned s'.op s'.queue = false)) ∧
    (s.queue ≠ [] → ∀ alive, Net.step A S fuel s (.exec 0 alive) ≠ .ok none) := by
  have hord := orderly_run es (orderly_start hx h0).1 he h
  constructor
  · intro es'
    clear h
    induction es' generalizing s with
    | nil =>
      intro s' _ hs
      cases hs
      refine ⟨by simp, fun hq => ?_⟩
      have hop : s.op = false := by
        rcases ho with ⟨h1, _⟩ | h1 | ⟨h1, _⟩
        · exact h1
        · exact hord.closed h1
        · exact h1
      simp [owned, hop, hq]
    | cons e es' ih =>
      intro s' he' hs
      simp only [Net.run] at hs
      split at hs
      · cases hs
      · cases hs
      · rename_i s1 x1 h1
        obtain ⟨g1, g2⟩ := over_step hord ho (he' e (by simp)) h1
        obtain ⟨k1, k2⟩ := ih s1 g1 (orderly_step hord (he' e (by simp)) h1) s' (fun e h => he' e (by simp [h])) hs
        exact ⟨by simp; omega, k2⟩
  · intro hne alive
    cases hq : s.queue with
    | nil => exact absurd hq hne
    | cons t rest =>
      simp only [Net.step, hq, List.getElem?_cons_zero]
      cases t with
      | key k =>
        simp only
        split
        · split
          · simp
          · split <;> simp
        · simp
      | read d =>
        simp only
        split
        · split <;> simp
        · simp
      | fail => simp

/-- After `lost` the connection is at its end. -/
theorem C79_lost {A : App σ τ} {S : Server σ} {fuel : Nat} {s s' : Life σ τ} {x : Option Exn} (h : Net.step A S fuel s .lost = .ok (some (s', x))) : Over s' := by
  simp only [Net.step] at h
  split at h <;> cases h
  exact .inl ⟨rfl, by simp⟩

/-- The client enters `exit`, and goes on typing. What it has sent by then is still executed (C74), then the session is destroyed. -/
example : netView (Net.run Sample.app server0 3 ([.arrive (bs!"exit" ++ [13, 0]), .exec 0 true] ++ List.replicate 4 (.exec 0 true) ++ [.arrive (bs!"any" ++ [13, 0]), .exec 0 true]) life0) = some (([], false), (1, true)) := by decide +kernel
example : netView (Net.run Sample.app server0 3 ([.arrive (bs!"exit" ++ [13, 0]), .exec 0 true] ++ List.replicate 4 (.exec 0 true) ++ [.arrive (bs!"any" ++ [13, 0]), .exec 0 true, .exec 0 true]) life0) = some (([], false), (0, false)) := by decide +kernel
example : netView (Net.run Sample.app server0 3 ([.arrive (bs!"exit" ++ [13, 0]), .exec 0 true] ++ List.replicate 6 (.exec 0 true)) life0) = some (([], false), (0, false)) := by decide +kernel

/-! ### C80, C81 -/

/-- **C80** (part) As long as the enter action of the `Cli` does not throw, the server goes on accepting clients: after any number of clients and of failures to accept one, the operation is in progress again; and every client
    gets a session. -/
theorem C80_accepts_partial (A : App σ τ) (S : Server σ) (hx : ∀ f s, A.enterGlobal = some f → (f s).exn = none) (es : List Knock) : ∀ (s s' : Acceptor σ τ), s.op = true → s.live = true → Knock.destroy ∉ es →
    knocks A S es s = .ok (some s') → s'.op = true ∧ s'.live = true ∧ s'.sessions = s.sessions + es.countP (fun e => match e with | .client _ => true | _ => false) := by
  induction es with
  | nil => intro s s' h1 h2 _ h; cases h; exact ⟨h1, h2, by simp⟩
  | cons e es ih =>
    intro s s' h1 h2 hd h
    have ih' := fun s1 a b c => ih s1 s' a b (fun he => hd (by simp [he])) c
    simp only [knocks] at h
    split at h
    · cases h
    · cases h
    · rename_i s1 x hs
      cases e with
      | client io =>
        simp only [knock, h1, h2, Bool.and_self, if_true] at hs
        have hne : (does A.enterGlobal s.w.app).exn = none := by
          cases hg : A.enterGlobal with
          | none => rfl
          | some f => exact hx f _ hg
        split at hs
        · cases hs
        · rename_i l e hl
          obtain ⟨_, hc, _⟩ := orderly_start hne hl
          cases hc
        · cases hs
          obtain ⟨g1, g2, g3⟩ := ih' _ rfl rfl h
          refine ⟨g1, g2, ?_⟩
          rw [g3]
          simp; omega
      | error =>
        simp only [knock, h1, h2, if_true] at hs
        cases hs
        obtain ⟨g1, g2, g3⟩ := ih' _ h1 h2 h
        exact ⟨g1, g2, by rw [g3]; simp⟩
      | destroy => exact absurd (by simp) hd

/-- **C80** (part) From the start of a server: as many sessions as clients have been accepted. -/
theorem C80_sessions_partial (A : App σ τ) (S : Server σ) (hx : ∀ f s, A.enterGlobal = some f → (f s).exn = none) (es : List Knock) (w : World σ τ) (s : Acceptor σ τ) (hd : Knock.destroy ∉ es)
    (h : knocks A S es (.init w) = .ok (some s)) : s.op = true ∧ s.live = true ∧ s.sessions = es.countP (fun e => match e with | .client _ => true | _ => false) := by
  obtain ⟨h1, h2, h3⟩ := C80_accepts_partial A S hx es (.init w) s rfl rfl hd h
  exact ⟨h1, h2, by rw [h3]; exact Nat.zero_add _⟩

/-- **C80** refuted: if the enter action of the `Cli` throws when a client connects, the server never accepts a client again, even if the exception is caught and the scheduler is run again. -/
theorem C80_throwing_enter_action_refuted : ∃ (A : App (List Nat) (List Str)) (s : Acceptor (List Nat) (List Str)),
    knocks A server0 [.client Sample.io] (.init Sample.world) = .ok (some s) ∧ s.live = true ∧ s.sessions = 1 ∧ ∀ io es, knocks A server0 (.client io :: es) s = .ok none :=
  ⟨{ Sample.app with enterGlobal := some (fun s => ⟨s, [], some (.std bs!"no")⟩) }, _, rfl, rfl, rfl, fun _ _ => rfl⟩

example : ∃ s, knocks Sample.app server0 [.client Sample.io, .error, .client Sample.io] (.init Sample.world) = .ok (some s) ∧ s.op = true ∧ s.sessions = 2 := ⟨_, rfl, rfl, rfl⟩

/-- Two states in which the menus are the same. -/
structure SameMenus {σ₁ σ₂ : Type} (v : World σ₁ τ) (w : World σ₂ τ) : Prop where
  tree : v.tree = w.tree
  dis : v.dis = w.dis
  used : v.used = w.used
  gen : v.gen = w.gen

theorem sameMenus_acts {σ₁ σ₂ : Type} (acts : List Act) : ∀ {v : World σ₁ τ} {w : World σ₂ τ}, SameMenus v w → SameMenus (acts.foldl World.act v) (acts.foldl World.act w) := by
  induction acts with
  | nil => intro v w h; exact h
  | cons a acts ih =>
    intro v w ⟨h1, h2, h3, h4⟩
    refine ih ?_
    cases a with
    | out s => exact ⟨h1, h2, h3, h4⟩
    | cout s => exact ⟨h1, h2, h3, h4⟩
    | color on => exact ⟨h1, h2, h3, h4⟩
    | enable id => simp only [World.act, h1, h2]; split <;> exact ⟨by simp [h1], by simp [h2], by simp [h3], by simp [h4]⟩
    | disable id => simp only [World.act, h1, h2]; split <;> exact ⟨by simp [h1], by simp [h2], by simp [h3], by simp [h4]⟩
    | remove id => simp only [World.act, h1]; split <;> exact ⟨by simp [h1], by simp [h2], by simp [h3], by simp [h4]⟩
    | insert m n => simp only [World.act, h1, h3]; split <;> exact ⟨by simp [h1], by simp [h2], by simp [h3], by simp [h4]⟩

theorem prompt_menus {w w' : World σ τ} (h : prompt w = .ok w') : SameMenus w' w := by
  unfold prompt at h
  repeat' split at h
  all_goals cases h
  all_goals exact ⟨rfl, rfl, rfl, rfl⟩

theorem accept_menus {A : App σ τ} {S : Server σ} {w : World σ τ} {io : Io} {t : Tel (σ × Bool) τ} {x : Option Exn} (h : Telnet.accept A S w io = .ok (t, x)) :
    x = (does A.enterGlobal w.app).exn ∧ t.proc.w.app.1 = (does A.enterGlobal w.app).app ∧ t.proc.w.storage = w.storage ∧ SameMenus t.proc.w ((does A.enterGlobal w.app).acts.foldl World.act w) := by
  have key : ∀ v : World (σ × Bool) τ, v.app = (w.app, true) → v.storage = w.storage → SameMenus v w →
      (enterSession (telnetApp A S.exitAction true) v).2 = (does A.enterGlobal w.app).exn ∧ (enterSession (telnetApp A S.exitAction true) v).1.app = ((does A.enterGlobal w.app).app, true) ∧
      (enterSession (telnetApp A S.exitAction true) v).1.storage = w.storage ∧ SameMenus (enterSession (telnetApp A S.exitAction true) v).1 ((does A.enterGlobal w.app).acts.foldl World.act w) := by
    intro v v1 v2 v3
    obtain ⟨a1, a2, _, _, a5⟩ := optAction_result (telnetApp A S.exitAction true).enterGlobal .enterGlobal v
    have a6 : SameMenus (optAction (telnetApp A S.exitAction true).enterGlobal .enterGlobal v).1 ((does A.enterGlobal w.app).acts.foldl World.act w) := by
      cases hg : A.enterGlobal with
      | none => simpa [telnetApp, hg, optAction, does] using v3
      | some f =>
        simp only [telnetApp, hg, Option.map_some, optAction, callAction, World.effect, does, v1, Telnet.lift]
        exact sameMenus_acts _ ⟨v3.tree, v3.dis, v3.used, v3.gen⟩
    obtain ⟨d1, d2, d3⟩ := does_lift (f := fun s g => Telnet.lift (g s.1) s.2) A.enterGlobal (w.app, true) (fun _ _ => rfl)
    have hx : (enterSession (telnetApp A S.exitAction true) v) = optAction (telnetApp A S.exitAction true).enterGlobal .enterGlobal v := by
      unfold enterSession
      cases ho : optAction (telnetApp A S.exitAction true).enterGlobal .enterGlobal v with
      | mk w1 x1 => cases x1 <;> rfl
    rw [hx]
    refine ⟨a1.trans ?_, a2.trans ?_, a5.storage.trans v2, a6⟩
    · rw [v1]; exact d3
    · rw [v1]; exact d1
  unfold Telnet.accept Telnet.connect at h
  simp only at h
  generalize hv : World.put _ _ = v at h
  obtain ⟨k1, k2, k3, k4⟩ := key v (by rw [← hv]; rfl) (by rw [← hv]; rfl) (by rw [← hv]; exact ⟨rfl, rfl, rfl, rfl⟩)
  cases he : enterSession (telnetApp A S.exitAction true) v with
  | mk w1 x1 =>
    rw [he] at h k1 k2 k3 k4
    simp only at k1 k2 k3 k4
    cases x1 with
    | some e => cases h; exact ⟨k1, by simp [k2], k3, k4⟩
    | none =>
      simp only [bind, Except.bind] at h
      split at h
      · cases h
      · rename_i w2 hp
        cases h
        obtain ⟨m1, m2, m3, m4⟩ := prompt_menus hp
        obtain ⟨p1, _⟩ := prompt_out hp
        refine ⟨k1, by simp [p1, k2], ?_, ⟨m1.trans k4.tree, m2.trans k4.dis, m3.trans k4.used, m4.trans k4.gen⟩⟩
        rw [← k3]
        unfold prompt at hp
        repeat' split at hp
        all_goals cases hp
        all_goals rfl

/-- **C80** What a client that connects does to the server, in general: the enter action of the `Cli` is run once and what it does to the application, the menus and the stored history is what remains; if it throws, the exception
    leaves the scheduler and no client is accepted afterwards, however often the scheduler is run again. -/
theorem C80_client (A : App σ τ) (S : Server σ) (s s' : Acceptor σ τ) (io : Io) (x : Option Exn) (h : knock A S s (.client io) = .ok (some (s', x))) :
    let e := does A.enterGlobal s.w.app
    x = e.exn ∧ s'.live = true ∧ s'.sessions = s.sessions + 1 ∧ s'.w.app = e.app ∧ s'.w.storage = s.w.storage ∧ SameMenus s'.w (e.acts.foldl World.act s.w) ∧
    (∀ y, e.exn = some y → ∀ io' es, knocks A S (.client io' :: es) s' = .ok none) := by
  intro e
  simp only [knock] at h
  split at h
  · rename_i hc
    simp only [Bool.and_eq_true] at hc
    unfold Net.start at h
    split at h
    · cases h
    · rename_i l y hl
      split at hl
      · cases hl
      · rename_i t z ht
        cases hl; cases h
        obtain ⟨a1, a2, a3, a4⟩ := accept_menus ht
        exact ⟨a1, hc.2, rfl, a2, a3, ⟨a4.tree, a4.dis, a4.used, a4.gen⟩, fun _ _ _ _ => by simp [knocks, knock]⟩
      · cases hl
    · rename_i l hl
      split at hl
      · cases hl
      · cases hl
      · rename_i t ht
        cases hl; cases h
        obtain ⟨a1, a2, a3, a4⟩ := accept_menus ht
        refine ⟨a1, hc.2, rfl, a2, a3, ⟨a4.tree, a4.dis, a4.used, a4.gen⟩, fun y hy => ?_⟩
        rw [← a1] at hy; cases hy
  · cases h

/-- An enter action that changes the menus and throws. -/
example : ∃ s, knock { Sample.app with enterGlobal := some (fun s => ⟨1 :: s, [.remove 3], some .other⟩) } server0 (.init Sample.world) (.client Sample.io) = .ok (some (s, some .other)) ∧
    s.w.app = 1 :: Sample.world.app ∧ s.w.gen = Sample.world.gen + 1 := ⟨_, rfl, rfl, rfl⟩

/-- **C81** refuted: a server must not be destroyed while the scheduler goes on: the handler of the aborted operation calls `Accept` of the destroyed server. -/
theorem C81_refuted (A : App σ τ) (S : Server σ) (w : World σ τ) : knocks A S [.destroy, .error] (.init w) = .error (.ub .dangling) := rfl

/-- **C81** (part) A server that has ceased to accept clients (C80) can be destroyed. Missing: all others. -/
theorem C81_partial (A : App σ τ) (S : Server σ) (s : Acceptor σ τ) (h : s.op = false) (es : List Knock) : ∃ r, knocks A S (.destroy :: es) s = .ok r := by
  have gen : ∀ (es : List Knock) (s : Acceptor σ τ), s.op = false → ∃ r, knocks A S es s = .ok r := by
    intro es
    induction es with
    | nil => intro s _; exact ⟨_, rfl⟩
    | cons e es ih =>
      intro s hs
      cases e with
      | client io => exact ⟨none, by simp [knocks, knock, hs]⟩
      | error => exact ⟨none, by simp [knocks, knock, hs]⟩
      | destroy =>
        cases hl : s.live with
        | false => exact ⟨none, by simp [knocks, knock, hl]⟩
        | true =>
          obtain ⟨r, hr⟩ := ih { s with live := false } hs
          exact ⟨r, by simp only [knocks, knock, hl, if_true]; exact hr⟩
  exact gen _ s h

end Verif.Props
