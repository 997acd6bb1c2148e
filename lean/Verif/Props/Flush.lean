import Verif.Model.Flush
import Verif.Model.Sessions
import Verif.Props.FileSession
import Verif.Props.Sessions
import Verif.Props.Net
import Verif.Props.Life

/-!
# C105: what a session has written is visible when it waits

Specification: when a session waits for the next key or line, all it has written has left the buffer of its stream.
-/

set_option linter.unusedSimpArgs false

namespace Verif.Props
open Flush
open Terminal (Term Key Symbol)
open Processor (Proc)

variable {σ τ : Type}

/-! ### It is the same session -/

theorem flush_setLine (b : Buf σ τ) (s : Str) : (b.setLine s).p = Processor.setLine b.p s := by
  simp only [Buf.setLine, Flush.setLine, Processor.setLine, Terminal.setLine, Out.flush, Out.write]
  split <;> rfl

theorem flush_prompt (w : World σ τ) (n : Nat) : (Flush.prompt w n).map (·.1) = Verif.prompt w := by
  unfold Flush.prompt
  cases Verif.prompt w <;> rfl

theorem flush_redraw (b : Buf σ τ) (line : Str) : (Flush.redraw b line).map (·.p) = Processor.redraw b.p line := by
  unfold Flush.redraw Processor.redraw Flush.prompt
  cases Verif.prompt b.p.w with
  | error f => rfl
  | ok w => simp only [bind, Except.bind, Except.map, flush_setLine]

theorem flush_tab (A : App σ τ) (fuel : Nat) (b : Buf σ τ) : (Flush.tab A fuel b).map (·.p) = Processor.tab A fuel b.p := by
  unfold Flush.tab Processor.tab
  simp only [bind, Except.bind]
  cases Completion.completions A.plat fuel b.p.w b.p.term.line with
  | error f => rfl
  | ok cs =>
    match cs with
    | [] => rfl
    | [c] => simp only [Except.map, flush_setLine]
    | c :: d :: cs =>
      simp only
      cases Completion.commonPrefix (c :: d :: cs) with
      | error f => rfl
      | ok pre =>
        simp only
        split
        · simp only [Except.map, flush_setLine]
        · rw [flush_redraw]

theorem flush_newCommand (A : App σ τ) (fuel : Nat) (b : Buf σ τ) (s : Symbol) :
    (Flush.newCommand A fuel b s).map (fun r => (r.1.p, r.2)) = Processor.newCommand A fuel b.p s := by
  cases s with
  | nothing => rfl
  | eof =>
    simp only [Flush.newCommand, Processor.newCommand, bind, Except.bind]
    cases exitSession A b.p.w <;> rfl
  | command s =>
    simp only [Flush.newCommand, Processor.newCommand, bind, Except.bind]
    cases feed A fuel s b.p.w with
    | error f => rfl
    | ok r =>
      obtain ⟨w, x⟩ := r
      cases x with
      | some e => rfl
      | none =>
        simp only [Flush.prompt]
        cases Verif.prompt w <;> rfl
  | down =>
    simp only [Flush.newCommand, Processor.newCommand, bind, Except.bind]
    cases History.next b.p.w.hist with
    | error f => rfl
    | ok r => simp only [Except.map, flush_setLine]
  | up =>
    simp only [Flush.newCommand, Processor.newCommand, bind, Except.bind]
    cases History.previous b.p.w.hist b.p.term.line with
    | error f => rfl
    | ok r => simp only [Except.map, flush_setLine]
  | tab =>
    simp only [Flush.newCommand, Processor.newCommand, bind, Except.bind]
    rw [← flush_tab]
    cases Flush.tab A fuel b <;> rfl
  | clear =>
    simp only [Flush.newCommand, Processor.newCommand, bind, Except.bind]
    rw [← flush_redraw ⟨_, (b.p.w.put Processor.clearScreen).io.out.length⟩]
    cases Flush.redraw _ _ <;> rfl

theorem flush_keypressed (A : App σ τ) (fuel : Nat) (b : Buf σ τ) (k : Key) :
    (Flush.keypressed A fuel b k).map (fun r => (r.1.p, r.2)) = Processor.keypressed A fuel b.p k := by
  simp only [Flush.keypressed, Processor.keypressed, bind, Except.bind, termKey]
  cases Terminal.keypressed b.p.term b.p.w.io k with
  | error f => rfl
  | ok r =>
    obtain ⟨t, io, s⟩ := r
    simp only
    rw [flush_newCommand]
    split <;> rfl

/-- The session is the one of the other models: what is written does not depend on when it is flushed. -/
theorem C105_same (A : App σ τ) (fuel : Nat) (ks : List Key) : ∀ b : Buf σ τ, (Flush.run A fuel ks b).map (fun r => (r.1.p, r.2)) = Processor.run A fuel ks b.p := by
  induction ks with
  | nil => intro b; rfl
  | cons k ks ih =>
    intro b
    simp only [Flush.run, Processor.run, bind, Except.bind]
    rw [← flush_keypressed]
    cases Flush.keypressed A fuel b k with
    | error f => rfl
    | ok r =>
      obtain ⟨b', x⟩ := r
      cases x with
      | some e => rfl
      | none => exact ih b'

/-! ### The property -/

/-- All that has been written has left the buffer. -/
def Shown (b : Buf σ τ) : Prop := b.sent = b.p.w.io.out.length

theorem shown_setLine (b : Buf σ τ) (s : Str) : Shown (b.setLine s) := by
  unfold Shown
  simp only [Buf.setLine, Flush.setLine]
  split <;> rfl

theorem shown_redraw {b b' : Buf σ τ} {line : Str} (h : Flush.redraw b line = .ok b') : Shown b' := by
  unfold Flush.redraw at h
  split at h
  · cases h
  · cases h; exact shown_setLine _ _

theorem shown_tab {A : App σ τ} {fuel : Nat} {b b' : Buf σ τ} (hs : Shown b) (h : Flush.tab A fuel b = .ok b') : Shown b' := by
  unfold Flush.tab at h
  simp only [bind, Except.bind] at h
  split at h
  · cases h
  · split at h
    · cases h; exact hs
    · cases h; exact shown_setLine _ _
    · split at h
      · cases h
      · split at h
        · cases h; exact shown_setLine _ _
        · exact shown_redraw h

/-- Keys that are no return and do not flush write nothing. -/
theorem key_writes {t t' : Term} {io io' : Io} {k : Key} {s : Symbol} (h : Terminal.keypressed t io k = .ok (t', io', s)) (hk : k ≠ .ret) (hf : flushes t k = false) : io' = io := by
  cases k <;> simp only [Terminal.keypressed, flushes, bind, Except.bind] at h hf <;> simp_all
  all_goals (repeat' split at h) <;> first | omega | simp_all

theorem exit_flag {A : App σ τ} {w w' : World σ τ} (h : exitSession A w = .ok (w', none)) : w'.exit = true := by
  rw [exitSession_eq] at h
  split at h
  · cases h
  · split at h
    · cases h
    · split at h
      · cases h
      · split at h
        · cases h
        · split at h
          · cases h
          · cases h; rfl

theorem prompt_exit {w w' : World σ τ} (h : Verif.prompt w = .ok w') : w'.exit = w.exit := by
  unfold Verif.prompt at h
  split at h
  · cases h; rfl
  · split at h
    · cases h; rfl
    · cases h

theorem shown_newCommand {A : App σ τ} {fuel : Nat} {b b' : Buf σ τ} {s : Symbol} (hs : (∀ l, s ≠ .command l) → Shown b) (h : Flush.newCommand A fuel b s = .ok (b', none)) (hx : b'.p.w.exit = false) : Shown b' := by
  cases s with
  | nothing => cases h; exact hs (by simp)
  | eof =>
    simp only [Flush.newCommand, bind, Except.bind] at h
    split at h
    · cases h
    · rename_i r hr
      obtain ⟨w, x⟩ := r
      cases h
      have := exit_flag hr
      simp only at hx
      rw [this] at hx; cases hx
  | command l =>
    simp only [Flush.newCommand, bind, Except.bind] at h
    split at h
    · cases h
    · rename_i r hr
      obtain ⟨w, x⟩ := r
      cases x with
      | some e => cases h
      | none =>
        simp only [Flush.prompt] at h
        split at h
        · cases h
        · rename_i r2 hr2
          split at hr2
          · cases hr2
          · rename_i w2 hw2
            cases hr2
            cases h
            have e : w.exit = false := by rw [← prompt_exit hw2]; exact hx
            simp only [Shown, e, Bool.false_eq_true, if_false]
  | down =>
    simp only [Flush.newCommand, bind, Except.bind] at h
    split at h
    · cases h
    · cases h; exact shown_setLine _ _
  | up =>
    simp only [Flush.newCommand, bind, Except.bind] at h
    split at h
    · cases h
    · cases h; exact shown_setLine _ _
  | tab =>
    simp only [Flush.newCommand, bind, Except.bind] at h
    split at h
    · cases h
    · rename_i b2 hb
      cases h
      exact shown_tab (hs (by simp)) hb
  | clear =>
    simp only [Flush.newCommand, bind, Except.bind] at h
    split at h
    · cases h
    · rename_i b2 hb
      cases h
      exact shown_redraw hb

theorem ret_symbol {t t' : Term} {io io' : Io} {k : Key} {s : Symbol} (h : Terminal.keypressed t io k = .ok (t', io', s)) (hk : k = .ret) : ∃ l, s = .command l := by
  subst hk
  cases h
  exact ⟨_, rfl⟩

theorem shown_keypressed {A : App σ τ} {fuel : Nat} {b b' : Buf σ τ} {k : Key} (hs : Shown b) (h : Flush.keypressed A fuel b k = .ok (b', none)) (hx : b'.p.w.exit = false) : Shown b' := by
  simp only [Flush.keypressed, bind, Except.bind, termKey] at h
  cases hk : Terminal.keypressed b.p.term b.p.w.io k with
  | error f => rw [hk] at h; cases h
  | ok r =>
    obtain ⟨t, io, s⟩ := r
    rw [hk] at h
    simp only at h
    refine shown_newCommand ?_ h hx
    intro hno
    cases hf : flushes b.p.term k with
    | true => simp [Shown, Out.flush]
    | false =>
      have : k ≠ .ret := fun e => by
        obtain ⟨l, e⟩ := ret_symbol hk e
        exact hno l e
      have e := key_writes hk this hf
      subst e
      simpa [Shown] using hs

theorem key_exit {A : App σ τ} {fuel : Nat} {b b' : Buf σ τ} {k : Key} {x : Option Exn} (h : Flush.keypressed A fuel b k = .ok (b', x)) (hx : b'.p.w.exit = false) : b.p.w.exit = false := by
  have h1 : Processor.keypressed A fuel b.p k = .ok (b'.p, x) := by rw [← flush_keypressed, h]; rfl
  obtain ⟨_, _, h2⟩ := keypressed_frame (closed_flagged A) (fun _ _ => flagged_same rfl rfl) (fun _ _ _ => flagged_same rfl rfl) h1
  cases e : b.p.w.exit with
  | false => rfl
  | true => rw [h2.2 (.inl e)] at hx; cases hx

theorem run_exit {A : App σ τ} {fuel : Nat} {ks : List Key} : ∀ {b b' : Buf σ τ} {x : Option Exn}, Flush.run A fuel ks b = .ok (b', x) → b'.p.w.exit = false → b.p.w.exit = false := by
  induction ks with
  | nil => intro b b' x h hx; cases h; exact hx
  | cons k ks ih =>
    intro b b' x h hx
    simp only [Flush.run, bind, Except.bind] at h
    split at h
    · cases h
    · rename_i r hr
      obtain ⟨b1, y⟩ := r
      cases y with
      | some e => cases h; exact key_exit hr hx
      | none => exact key_exit hr (ih h hx)

/-- **C105** (partial: until the session is closed, and if no exception leaves a key press) All a session at a keyboard has written has left the buffer when it waits for the next key, after any keys. What is missing: `C105_exit_refuted`,
    `C105_exception_refuted`, `C105_others_refuted`. -/
theorem C105_keys_partial (A : App σ τ) (fuel : Nat) (ks : List Key) (b b' : Buf σ τ) (hs : b.sent = b.p.w.io.out.length) (h : Flush.run A fuel ks b = .ok (b', none)) (hx : b'.p.w.exit = false) :
    b'.sent = b'.p.w.io.out.length := by
  have key : ∀ n (ks : List Key), ks.length = n → ∀ (b b' : Buf σ τ), Shown b → Flush.run A fuel ks b = .ok (b', none) → b'.p.w.exit = false → Shown b' := by
    intro n
    induction n with
    | zero => intro ks hl b b' hs h _; cases List.length_eq_zero_iff.1 hl; cases h; exact hs
    | succ n ih =>
      intro ks hl b b' hs h hx
      cases ks with
      | nil => cases hl
      | cons k ks =>
        simp only [Flush.run, bind, Except.bind] at h
        split at h
        · cases h
        · rename_i r hr
          obtain ⟨b1, x⟩ := r
          cases x with
          | some e => cases h
          | none => exact ih ks (by simpa using hl) b1 b' (shown_keypressed hs hr (run_exit h hx)) h hx
  exact key ks.length ks rfl b b' hs h hx

/-- The sample session at a keyboard: two commands, a correction, and the history. -/
def atKeys : Buf (List Nat) (List Str) := ⟨⟨Sample.world, ⟨[], 0⟩, true⟩, 0⟩

example : ∃ b, Flush.run Sample.app 3 [.ascii b%'g', .ascii b%'x', .backspace, .ret, .up, .ascii b%'\t', .left, .home, .clear] atKeys = .ok (b, none) ∧ b.p.w.exit = false ∧ 0 < b.sent ∧ b.sent = b.p.w.io.out.length :=
  ⟨_, rfl, rfl, by decide +kernel, by decide +kernel⟩

/-- **C105** (partial: without an exit action of the user's own) A session on a file: all it has written has left the buffer whenever it reads a line. -/
theorem C105_file_partial (A : App σ τ) (fuel n : Nat) : ∀ (i : FileSession.In) (w : World (σ × Bool) τ) (sent : Nat), w.app.2 = false → ends w.log = [] → w.exit = false →
    ∀ x ∈ waits (FileSession.fileApp A none) fuel n i w sent, x.1 = x.2 := by
  induction n with
  | zero => intro i w sent h0 hl hx x h; simp [waits, h0] at h
  | succ n ih =>
    intro i w sent h0 hl hx x h
    unfold waits at h
    simp only [h0, Bool.false_eq_true, if_false] at h
    unfold Flush.prompt at h
    cases hp : Verif.prompt w with
    | error f => rw [hp] at h; cases h
    | ok w1 =>
      rw [hp] at h
      simp only [hx, Bool.false_eq_true, if_false] at h
      have st := stays_prompt hp
      have hx1 : w1.exit = false := (prompt_exit hp).trans hx
      have hl1 : ends w1.log = [] := st.1.trans hl
      have h01 : w1.app.2 = false := st.2.trans h0
      split at h
      · rcases List.mem_cons.1 h with rfl | h
        · rfl
        · split at h
          · split at h
            · rename_i w2 he
              have := (exit_ends A he).1
              unfold waits at h
              simp [this] at h
            · cases h
          · split at h
            · rename_i w2 hf
              obtain ⟨f1, _⟩ := feed_ends A hl1 (by simp [Flag, h01, hl1]) hf
              cases ha : w2.app.2 with
              | true => unfold waits at h; simp [ha] at h
              | false =>
                have hl2 : ends w2.log = [] := by
                  cases he : ends w2.log with
                  | nil => rfl
                  | cons a as => rw [f1.2 (by rw [he]; simp)] at ha; cases ha
                have hx2 : w2.exit = false := by
                  obtain ⟨evs, e1, e2⟩ := closed_feed (closed_flagged (FileSession.fileApp A none)) (fun _ _ => flagged_same rfl rfl) _ _ _ _ _ hf
                  cases hy : w2.exit with
                  | false => rfl
                  | true =>
                    exfalso
                    rcases e2.1 hy with hy | hy
                    · rw [hx1] at hy; cases hy
                    · obtain ⟨ev, hm, hs⟩ := List.any_eq_true.1 hy
                      have : ev ∈ ends w2.log := List.mem_filter.2 ⟨by rw [e1]; simp [hm], by cases ev <;> simp_all [isSaved, isEnd]⟩
                      rw [hl2] at this; cases this
                exact ih _ _ _ ha hl2 hx2 x h
            · cases h
      · cases h

theorem getline_kept (i : FileSession.In) (hg : i.good = true) (hb : i.broken = false) (he : (FileSession.getline i).1.eof = false) : (FileSession.getline i).1.good = true ∧ (FileSession.getline i).1.broken = false := by
  unfold FileSession.getline at he ⊢
  rw [if_pos hg] at he ⊢
  split at he
  · exact ⟨hg, hb⟩
  · rw [if_neg (by simp [hb])] at he; cases he

/-- The rounds counted are those of the model of the session (`Model/FileSession`): `getline` is called once for each line that is executed, and once more at the end of the file. -/
theorem C105_file_same (A : App σ τ) (fuel n : Nat) : ∀ (i : FileSession.In) (fed : List Str) (w : World (σ × Bool) τ) (sent : Nat) (en : FileSession.End σ τ), i.good = true → i.broken = false →
    FileSession.loop (FileSession.fileApp A none) fuel n i fed w = .ok (some en) → en.exn = none →
    fed.length + (waits (FileSession.fileApp A none) fuel n i w sent).length = en.fed.length + (if en.i.eof then 1 else 0) := by
  induction n with
  | zero =>
    intro i fed w sent en hg hb h hx
    unfold FileSession.loop at h
    split at h
    · rename_i h2
      cases h
      have : i.eof = false := by unfold FileSession.In.good at hg; simp at hg; exact hg.1.1
      simp [waits, h2, this]
    · cases h
  | succ n ih =>
    intro i fed w sent en hg hb h hx
    have he0 : i.eof = false := by unfold FileSession.In.good at hg; simp at hg; exact hg.1.1
    unfold FileSession.loop at h
    split at h
    · rename_i h2
      cases h
      simp [waits, h2, he0]
    · rename_i h2
      unfold waits
      rw [if_neg h2]
      simp only [hg, if_true] at h ⊢
      split at h
      · cases h
      · rename_i w1 hp
        have hp : Verif.prompt w = .ok w1 := hp
        simp only [Flush.prompt, hp]
        split at h
        · rename_i he
          rw [if_pos he]
          unfold FileSession.exitThen at h
          split at h
          · cases h
          · cases h; cases hx
          · rename_i w2 hq
            simp only [hq]
            have h3 : w2.app.2 = true := (exit_ends A hq).1
            unfold FileSession.loop at h
            rw [if_pos h3] at h
            cases h
            unfold waits
            simp [h3, he]
        · rename_i he
          rw [if_neg he]
          have he : (FileSession.getline i).1.eof = false := by simpa using he
          obtain ⟨g1, g2⟩ := getline_kept i hg hb he
          split at h
          · cases h
          · cases h; cases hx
          · rename_i w2 hq
            simp only [hq]
            have := ih _ _ w2 (if w.exit then sent else w1.io.out.length) en g1 g2 h hx
            simp only [List.length_append, List.length_cons, List.length_nil] at this ⊢
            omega

example : (match FileSession.loop onFile 3 9 (.of bs!"any 1\nsub go\nexit\nany 2\n") [] fileWorld with | .ok (some en) => some (en.fed.length, en.i.eof, en.exn) | _ => none) = some (3, false, none) := by decide +kernel

example : waits onFile 3 9 (.of bs!"any 1\nsub go\nexit\nany 2\n") fileWorld 0 = [(5, 5), (13, 13), (21, 21)] := by decide +kernel

/-- **C105** (partial: until the session is closed, and if no exception leaves `Feed`) An asynchronous session: all it has written has left the buffer when the next line is read. -/
theorem C105_async_partial (A : App σ τ) (fuel : Nat) (w w' : World σ τ) (n m : Nat) (line : Str) (h : asyncLine A fuel w n line = .ok (w', m, none)) (hx : w'.exit = false) : m = w'.io.out.length := by
  unfold asyncLine at h
  split at h
  · cases h
  · cases h
  · rename_i w1 _
    unfold Flush.prompt at h
    cases hp : Verif.prompt w1 with
    | error f => rw [hp] at h; cases h
    | ok w2 =>
      rw [hp] at h
      cases h
      have : w1.exit = false := (prompt_exit hp).symm.trans hx
      simp only [this, Bool.false_eq_true, if_false]

example : ∃ w, asyncLine Sample.app 3 Sample.world 0 bs!"any 1" = .ok (w, 8, none) ∧ w.exit = false ∧ w.io.out = bs!"ok\ncli> " := ⟨_, rfl, rfl, rfl⟩

/-- The text of `C105_same` for asynchronous sessions. -/
theorem C105_async_same (A : App σ τ) (fuel : Nat) (w w' : World σ τ) (n m : Nat) (line : Str) (h : asyncLine A fuel w n line = .ok (w', m, none)) :
    ∃ w1, feed A fuel line w = .ok (w1, none) ∧ Verif.prompt w1 = .ok w' := by
  unfold asyncLine at h
  split at h
  · cases h
  · cases h
  · rename_i w1 h1
    refine ⟨w1, h1, ?_⟩
    rw [← flush_prompt w1 n]
    split at h
    · cases h
    · rename_i hp; cases h; rw [hp]; rfl

/-! ### Where it fails -/

/-- When the session is closed, nothing that is written by the key press that closes it, the farewell of the exit actions included, is flushed (`Prompt` returns before, and end-of-file shows no prompt). -/
theorem C105_exit_pending (A : App σ τ) (fuel : Nat) (b b' : Buf σ τ) (k : Key) (hk : k = .ret ∨ k = .eof) (h : Flush.keypressed A fuel b k = .ok (b', none)) (hx : b'.p.w.exit = true) : b'.sent = b.sent := by
  rcases hk with rfl | rfl
  · simp only [Flush.keypressed, bind, Except.bind, termKey, Terminal.keypressed, flushes, Flush.newCommand, Bool.false_eq_true, if_false] at h
    split at h
    · cases h
    · rename_i r hr
      obtain ⟨w, x⟩ := r
      cases x with
      | some e => cases h
      | none =>
        simp only [Flush.prompt] at h
        cases hp : Verif.prompt w with
        | error f => rw [hp] at h; cases h
        | ok w2 =>
          rw [hp] at h
          cases h
          have : w.exit = true := (prompt_exit hp).symm.trans hx
          simp only [this, if_true]
  · simp only [Flush.keypressed, bind, Except.bind, termKey, Terminal.keypressed, flushes, Flush.newCommand, Bool.false_eq_true, if_false] at h
    split at h
    · cases h
    · rename_i r _; obtain ⟨w, x⟩ := r; cases h; rfl

/-- **C105** is false of the code when the session is closed: the sample application says good-bye, but it is not seen. -/
theorem C105_exit_refuted : ∃ b, Flush.run actions 3 [.ascii b%'e', .ascii b%'x', .ascii b%'i', .ascii b%'t', .ret] atKeys = .ok (b, none) ∧ b.p.w.io.out = bs!"exit\r\ngoodbye\n" ∧ b.sent = 4 ∧ b.p.w.exit = true :=
  ⟨_, rfl, by decide +kernel, by decide +kernel, rfl⟩

/-- The application's exception handler writes something and throws. -/
def complaining : App (List Nat) (List Str) := { Sample.app with onException := some (fun s _ e => ⟨s, [.out bs!"oops\n"], some e⟩) }

/-- **C105** is false of the code when an exception leaves the key press, even if the program goes on: the prompt is not shown, and what was written before stays in the buffer. -/
theorem C105_exception_refuted : ∃ (b b1 : Buf (List Nat) (List Str)) (e : Exn), Flush.run complaining 3 [.ascii b%'b', .ascii b%'o', .ascii b%'o', .ascii b%'m'] atKeys = .ok (b, none) ∧ Flush.keypressed complaining 3 b .ret = .ok (b1, some e) ∧
    b1.p.w.exit = false ∧ b1.p.w.io.out = bs!"boom\r\nok\noops\n" ∧ b1.sent = 4 := ⟨_, _, _, rfl, rfl, rfl, by decide +kernel, by decide +kernel⟩

/-- What is written to `Cli::cout()` is added to the output of the other sessions, but however much the others write, and do, a session that waits for its next line gets nothing of it. -/
theorem C105_others_pending (A : Nat → App σ τ) (ops : List Sessions.Op) : ∀ (M M' : Many σ τ) (j : Nat), (∀ op ∈ ops, op.who ≠ j) → M.run A ops = .ok M' →
    M'.sent j = M.sent j ∧ ∃ text, (M'.S.own j).out = (M.S.own j).out ++ text := by
  induction ops with
  | nil => intro M M' j _ h; cases h; exact ⟨rfl, [], by simp⟩
  | cons op ops ih =>
    intro M M' j hj h
    simp only [Many.run] at h
    split at h
    · rename_i M1 h1
      unfold Many.step at h1
      split at h1
      · cases h1
      · rename_i S1 hs
        cases h1
        obtain ⟨i1, text, i2⟩ := ih _ _ j (fun o ho => hj o (by simp [ho])) h
        obtain ⟨_, texts, _, o⟩ := other_step (P := fun _ => True) (fun i => by
          refine ⟨?_, ?_, ?_, ?_, ?_, ?_, ?_⟩ <;> intros <;> (intro s _; trivial)) (fun _ _ _ s _ => trivial) hs (hj op (by simp))
        refine ⟨?_, texts.flatten ++ text, ?_⟩
        · rw [i1]
          have hne := hj op (by simp)
          cases op with
          | prompt i =>
            simp only [Sessions.Op.who] at hne
            simp only
            split
            · exact if_neg (Ne.symm hne)
            · rfl
          | _ => rfl
        · rw [i2, o]; simp
    · cases h

/-- **C105** Several sessions: after its prompt, all that is on the stream of a session that is not closed has left the buffer, whoever wrote it; the prompt of a session that is closed leaves the buffers as they are. -/
theorem C105_many_prompt (A : Nat → App σ τ) (M M' : Many σ τ) (i : Nat) (hl : M.S.live i = true) (h : M.step A (.prompt i) = .ok M') :
    ((M.S.own i).exit = false → M'.sent i = (M'.S.own i).out.length) ∧ ((M.S.own i).exit = true → M'.sent = M.sent) := by
  unfold Many.step at h
  split at h
  · cases h
  · cases h
    constructor <;> intro hx <;> simp [hl, hx]

/-- **C105** is false of the code for what is written to `Cli::cout()`: session 1 has shown its prompt and waits; session 0 executes a command that writes to `Cli::cout()`. -/
theorem C105_others_refuted : ∃ M M' : Many (List Nat) (List Str), Many.run (fun _ => echo) ⟨two, fun _ => 0⟩ [.prompt 1] = .ok M ∧ M.sent 1 = (M.S.own 1).out.length ∧
    M.run (fun _ => { echo with handler := fun _ s _ => ⟨s, [.cout bs!"hi\n"], none⟩ }) [.feed 0 3 bs!"any", .prompt 0] = .ok M' ∧ (M'.S.own 1).out = bs!"cli> hi\n" ∧ M'.sent 1 = 5 ∧ M'.sent 0 = (M'.S.own 0).out.length :=
  ⟨_, _, rfl, rfl, rfl, by decide +kernel, rfl, rfl⟩

end Verif.Props
