import Verif.Model.Hosted
import Verif.Props.SameOverTelnet
import Verif.Props.Program
import Verif.Props.Screenplay

set_option linter.unusedSimpArgs false

/-!
# Property C126: a session on the application's own `io_context`
-/

namespace Verif.Hosted
open Spec Transfer
open Terminal (Key)
open Processor (Proc)
open Keyboard (decode)

variable {σ τ α : Type}

/-- The same program, but for texts that have been written between what the session writes. -/
structure SameProgram (s t : Program.St σ τ α) (texts : List Str) : Prop where
  phase : t.phase = s.phase
  kb : t.loc.kb = s.loc.kb
  handled : t.loc.handled = s.loc.handled
  busy : t.loc.busy = s.loc.busy
  live : t.loc.live = s.loc.live
  app : t.loc.proc.w.app = s.loc.proc.w.app
  session : Transfer.SameSession s.loc.proc t.loc.proc texts.flatten
  /-- each of the texts is whole -/
  out : Between s.loc.proc.w.io.out texts t.loc.proc.w.io.out

/-! ### Proof -/

/-- The states of the application are equal, and texts have been written between. -/
def self (n : List Str) : Rel σ σ where
  app := fun _ _ s s' => s' = s
  later := fun _ _ _ _ _ h => h
  out := fun a b => Between a n b
  more := fun _ _ s h => h.same s
  free := fun _ _ => True
  builtin := fun _ _ _ _ => trivial

theorem self_sim (A : App σ τ) (n : List Str) : Sim A A (self n) (self n) where
  plat := rfl
  handler := by rintro log ex f s s' v rfl; exact ⟨rfl, rfl, rfl⟩
  exception := both_same _ (by rintro g _ log ex s s' l e rfl; exact ⟨rfl, rfl, rfl⟩)
  wrong := both_same _ (by rintro g _ log ex s s' l rfl; exact ⟨rfl, rfl, rfl⟩)
  exitSession := both_same _ (by rintro g _ log ex s s' _ rfl; exact ⟨fun _ => ⟨rfl, rfl, rfl⟩, fun _ => ⟨rfl, rfl, rfl⟩⟩)
  exitGlobal := both_same _ (by rintro g _ log ex s s' _ rfl; exact ⟨fun _ => ⟨rfl, rfl, rfl⟩, fun _ => ⟨rfl, rfl, rfl⟩⟩)
  enterSession := both_same _ (by rintro g _ log ex s s' _ rfl; exact ⟨rfl, rfl, rfl⟩)
  enterGlobal := both_same _ (by rintro g _ log ex s s' _ rfl; exact ⟨rfl, rfl, rfl⟩)
  store := rfl
  storeFails := rfl
  out := rfl
  always := fun _ _ => trivial
  done := fun _ _ _ _ h => h
  fails := fun _ _ _ _ _ _ _ h => h

/-- The two programs, as they are compared in the proof. -/
structure Near (n : List Str) (s t : Program.St σ τ α) : Prop where
  phase : t.phase = s.phase
  kb : t.loc.kb = s.loc.kb
  handled : t.loc.handled = s.loc.handled
  busy : t.loc.busy = s.loc.busy
  live : t.loc.live = s.loc.live
  proc : LikeProc (self n) s.loc.proc t.loc.proc

theorem Near.app {n : List Str} {s t : Program.St σ τ α} (h : Near n s t) : t.loc.proc.w.app = s.loc.proc.w.app := h.proc.1.app

theorem near_same {n : List Str} {s t : Program.St σ τ α} (h : Near n s t) : SameProgram s t n := by
  refine ⟨h.phase, h.kb, h.handled, h.busy, h.live, h.app, ?_, ?_⟩
  · obtain ⟨⟨a, o, h1, h2, h3⟩, h4, h5⟩ := h.proc
    rw [show t.loc.proc = ⟨t.loc.proc.w, t.loc.proc.term, t.loc.proc.active⟩ from rfl, h3]
    exact ⟨rfl, rfl, rfl, rfl, rfl, rfl, rfl, rfl, rfl, h4, h5, Between.weave h2⟩
  · obtain ⟨⟨a, o, h1, h2, h3⟩, _⟩ := h.proc
    rw [h3]
    exact h2

theorem near_refl (s : Program.St σ τ α) : Near [] s s :=
  ⟨rfl, rfl, rfl, rfl, rfl, ⟨s.loc.proc.w.app, s.loc.proc.w.io.out, rfl, (show Between _ [] _ by simpa using Between.nil.same s.loc.proc.w.io.out), rfl⟩, rfl, rfl⟩

theorem near_write {n : List Str} {s t : Program.St σ τ α} (h : Near n s t) (x : Str) : Near (n ++ [x]) s (write t x) := by
  obtain ⟨h1, h2, h3, h4, h5, ⟨w, o, g1, g2, g3⟩, g4, g5⟩ := h
  refine ⟨h1, h2, h3, h4, h5, ⟨w, o ++ x, g1, Between.text g2 x, ?_⟩, g4, g5⟩
  show t.loc.proc.w.put x = _
  rw [g3]; rfl

/-- Results that differ at most in the same way. -/
inductive NearRes (n : List Str) : Except Fault (Option (Program.St σ τ α × Option Exn)) → Except Fault (Option (Program.St σ τ α × Option Exn)) → Prop
  | fault (f) : NearRes n (.error f) (.error f)
  | none : NearRes n (.ok none) (.ok none)
  | some {s t} (x) : Near n s t → NearRes n (.ok (some (s, x))) (.ok (some (t, x)))

theorem near_step (A : App σ τ) (stopped : σ → Bool) (fuel : Nat) (p : Platform) (manual : α → α) {n : List Str} {s t : Program.St σ τ α} (h : Near n s t) (e : Program.Ev α) :
    NearRes n (Program.step A stopped fuel p manual s e) (Program.step A stopped fuel p manual t e) := by
  obtain ⟨⟨kb, proc, handled, busy, live⟩, phase⟩ := s
  obtain ⟨⟨kb', proc', handled', busy', live'⟩, phase'⟩ := t
  have ha := h.app
  obtain ⟨h1, h2, h3, h4, h5, h6⟩ := h
  simp only at h1 h2 h3 h4 h5 h6 ha
  subst h1 h2 h3 h4 h5
  cases e with
  | kb e =>
    simp only [Program.step, Local.step]
    split
    · split
      · exact .none
      · exact .some _ ⟨rfl, rfl, rfl, rfl, rfl, h6⟩
    · exact .none
  | task =>
    simp only [Program.step, Local.step, ha]
    split
    · split
      · exact .none
      · split
        · exact .none
        · rename_i key hk
          split
          · rcases alike_keypressed (self_sim A n) fuel trivial h6 key with ⟨x, e1, e2⟩ | ⟨p', q', x, e1, e2, h'⟩
            · rw [e1, e2]; exact .fault _
            · rw [e1, e2]
              simp only
              split
              · exact .some _ ⟨rfl, rfl, rfl, rfl, rfl, h'⟩
              · exact .some _ ⟨rfl, rfl, rfl, rfl, rfl, h'⟩
          · split
            · exact .fault _
            · exact .none
    · exact .none
  | done =>
    simp only [Program.step, Local.step]
    split
    · split
      · split
        · exact .none
        · exact .some _ ⟨rfl, rfl, rfl, rfl, rfl, h6⟩
      · exact .none
    · exact .none
  | ret =>
    simp only [Program.step, ha]
    split
    · exact .some _ ⟨rfl, rfl, rfl, rfl, rfl, h6⟩
    · exact .none
  | destroy =>
    simp only [Program.step]
    split
    · split
      · exact .none
      · exact .some _ ⟨rfl, rfl, rfl, rfl, rfl, h6⟩
    · exact .none
  | join =>
    simp only [Program.step]
    split
    · exact .some _ ⟨rfl, rfl, rfl, rfl, rfl, h6⟩
    · exact .none

theorem perm_erase {l : List Str} {i : Nat} {x : Str} (h : l[i]? = some x) : (x :: l.eraseIdx i).Perm l := by
  induction l generalizing i with
  | nil => cases h
  | cons a l ih =>
    cases i with
    | zero => simp only [List.getElem?_cons_zero, Option.some.injEq] at h; subst h; exact .refl _
    | succ i =>
      rw [List.getElem?_cons_succ] at h
      rw [List.eraseIdx_cons_succ]
      exact (List.Perm.swap _ _ _).trans ((ih h).cons a)

section
variable (A : App σ τ) (stopped : σ → Bool) (fuel : Nat) (p : Platform) (manual : α → α)

/-- What the two runs have in common. -/
def Shared (s0 : St σ τ α) (n : List Str) : Except Fault (Option (Program.St σ τ α × Option Exn)) → Except Fault (Option (St σ τ α × Option Exn)) → Prop
  | r, .error f => r = .error f
  | _, .ok none => True
  | r, .ok (some (t, x)) => ∃ s texts, r = .ok (some (s, x)) ∧ Near (n ++ texts) s t.prog ∧ (texts ++ t.own).Perm s0.own

theorem shared_run (es : List (Ev α)) : ∀ {n : List Str} {s : Program.St σ τ α} {t : St σ τ α}, Near n s t.prog → Shared t n (Program.run A stopped fuel p manual (others es) s) (run A stopped fuel p manual es t) := by
  induction es with
  | nil => intro n s t h; exact ⟨s, [], rfl, by simpa using h, .refl _⟩
  | cons e es ih =>
    intro n s t h
    cases e with
    | prog e =>
      simp only [others, Program.run, run, step]
      have k := near_step A stopped fuel p manual h e
      generalize Program.step A stopped fuel p manual s e = a at k ⊢
      generalize Program.step A stopped fuel p manual t.prog e = b at k ⊢
      cases k with
      | fault f => exact rfl
      | none => exact trivial
      | some x k =>
        cases x with
        | some x => exact ⟨_, [], rfl, by simpa using k, .refl _⟩
        | none => exact ih (t := ⟨_, t.own⟩) k
    | own i =>
      simp only [others, run, step]
      split
      · rename_i x hx
        split at hx
        · split at hx <;> cases hx
        · cases hx
      · trivial
      · rename_i t' x hx
        split at hx
        · split at hx <;> cases hx
        · cases hx
      · rename_i t' hx
        split at hx
        · split at hx
          · cases hx
          · rename_i text ht
            cases hx
            have k := ih (t := ⟨write t.prog text, t.own.eraseIdx i⟩) (near_write h text)
            revert k
            generalize Program.run A stopped fuel p manual (others es) s = a
            generalize run A stopped fuel p manual es _ = b
            match b with
            | .error f => exact id
            | .ok none => exact id
            | .ok (some (t', x)) =>
              rintro ⟨s', texts, rfl, k1, k2⟩
              refine ⟨s', text :: texts, rfl, ?_, ?_⟩
              · simpa [List.append_assoc] using k1
              · exact (k2.cons text).trans (perm_erase ht)
        · cases hx

end

/-! ### The session is not disturbed -/

/-- **C126** (partial: the line being edited does not stay on the screen) Whatever the functions of the application write, and whenever they do: the program does what it would do without them (in all respects: the keys taken, everything
    called with its arguments, the menus, the history, the line being edited and its cursor, the state of the keyboard, where the main thread is, and the exception that ends it), and writes what it would write,
    with the texts of the functions between, each of them whole. Each of them is executed at most once. -/
theorem C126_same_partial (A : App σ τ) (stopped : σ → Bool) (fuel : Nat) (p : Platform) (manual : α → α) (es : List (Ev α)) (s t : St σ τ α) (x : Option Exn)
    (h : run A stopped fuel p manual es s = .ok (some (t, x))) :
    ∃ s' texts, Program.run A stopped fuel p manual (others es) s.prog = .ok (some (s', x)) ∧ SameProgram s' t.prog texts ∧ (texts ++ t.own).Perm s.own := by
  have k := shared_run A stopped fuel p manual es (near_refl s.prog)
  rw [h] at k
  obtain ⟨s', texts, k1, k2, k3⟩ := k
  exact ⟨s', texts, k1, near_same (by simpa using k2), k3⟩

/-- **C126** They are not the cause of undefined behaviour. -/
theorem C126_defined (A : App σ τ) (stopped : σ → Bool) (fuel : Nat) (p : Platform) (manual : α → α) (es : List (Ev α)) (s : St σ τ α) (f : Fault) (h : run A stopped fuel p manual es s = .error f) :
    Program.run A stopped fuel p manual (others es) s.prog = .error f := by
  have k := shared_run A stopped fuel p manual es (near_refl s.prog)
  rw [h] at k
  exact k

/-- **C126** Without signals: a beginning of the keys typed is executed in the session, in order; `Stop` is called by none of them but the last; `run` returns only after it, and the functions of the application have not changed anything
    but what is on the stream. -/
theorem C126_keys (A : App σ τ) (stopped : σ → Bool) (fuel : Nat) (p : Platform) (manual : α → α) (tty : α) (n : Nat) (w : World σ τ) (io : Io) (l : Local.St σ τ α) (own : List Str) (es : List (Ev α)) (t : St σ τ α)
    (h0 : Local.create A manual tty n w io = .ok (l, none)) (hc : ∀ e ∈ others es, Props.Calm e) (h : run A stopped fuel p manual es ⟨⟨l, .run⟩, own⟩ = .ok (some (t, none))) :
    ∃ keys q texts, keys <+: (decode p .first (Props.Program.typed (others es))).2 ∧ Processor.run A fuel keys l.proc = .ok (q, none) ∧ Transfer.SameSession q t.prog.loc.proc texts.flatten ∧ Between q.w.io.out texts t.prog.loc.proc.w.io.out ∧ t.prog.loc.proc.w.app = q.w.app ∧
      (texts ++ t.own).Perm own ∧ (∀ k, k < keys.length → ∀ q x, Processor.run A fuel (keys.take k) l.proc = .ok (q, x) → stopped q.w.app = false) ∧ (t.prog.phase ≠ .run → stopped t.prog.loc.proc.w.app = true) := by
  obtain ⟨s', texts, k1, k2, k3⟩ := C126_same_partial A stopped fuel p manual es _ t none h
  obtain ⟨keys, g1, g2, g3, g4⟩ := Props.C90_nothing_after_exit A stopped fuel p manual tty n w io l s' _ h0 hc k1
  exact ⟨keys, s'.loc.proc, texts, g1, g2, k2.session, k2.out, k2.app, k3, g3, fun hp => by rw [k2.app]; exact g4 (by rw [← k2.phase]; exact hp)⟩

theorem stopped_step (A : App σ τ) (stopped : σ → Bool) (fuel : Nat) (p : Platform) (manual : α → α) {s t : St σ τ α} {e : Ev α} {x : Option Exn} (hs : stopped s.prog.loc.proc.w.app = true)
    (h : step A stopped fuel p manual s e = .ok (some (t, x))) : t.own = s.own ∧ t.prog.loc.proc = s.prog.loc.proc ∧ x = none := by
  obtain ⟨⟨⟨kb, proc, handled, busy, live⟩, phase⟩, own⟩ := s
  simp only at hs
  cases e with
  | own i =>
    simp only [step, hs] at h
    rw [if_neg (by simp)] at h
    cases h
  | prog e =>
    simp only [step] at h
    cases e with
    | kb e =>
      simp only [Program.step, Local.step] at h
      by_cases ho : Local.ownStep e = true
      · rw [if_pos ho] at h
        cases hk : Keyboard.step p manual kb e <;> simp only [hk, Program.step.lift] at h <;> cases h
        exact ⟨rfl, rfl, rfl⟩
      · rw [if_neg ho] at h; simp only [Program.step.lift] at h; cases h
    | task =>
      simp only [Program.step, hs] at h
      rw [if_neg (by simp)] at h
      cases h
    | done =>
      simp only [Program.step, Local.step] at h
      by_cases hp : phase = .run
      · rw [if_pos hp] at h
        cases busy with
        | false => simp only [Bool.false_eq_true, if_false, Program.step.lift] at h; cases h
        | true =>
          simp only [if_true] at h
          cases hk : Keyboard.step p manual kb .activate <;> simp only [hk, Program.step.lift] at h <;> cases h
          exact ⟨rfl, rfl, rfl⟩
      · rw [if_neg hp] at h; cases h
    | ret =>
      simp only [Program.step] at h
      split at h
      · cases h
      · cases h
      · rename_i hx
        split at hx <;> cases hx
        cases h
        exact ⟨rfl, rfl, rfl⟩
    | destroy =>
      simp only [Program.step] at h
      split at h
      · cases h
      · cases h
      · rename_i hx
        split at hx
        · split at hx <;> cases hx
          cases h
          exact ⟨rfl, rfl, rfl⟩
        · cases hx
    | join =>
      simp only [Program.step] at h
      split at h
      · cases h
      · cases h
      · rename_i hx
        split at hx <;> cases hx
        cases h
        exact ⟨rfl, rfl, rfl⟩

/-- **C126** When `Stop` has been called, no function of the application is executed, and nothing is written: neither by them nor by the session. -/
theorem C126_after_stop (A : App σ τ) (stopped : σ → Bool) (fuel : Nat) (p : Platform) (manual : α → α) (es : List (Ev α)) (s t : St σ τ α) (x : Option Exn) (hs : stopped s.prog.loc.proc.w.app = true)
    (h : run A stopped fuel p manual es s = .ok (some (t, x))) : t.own = s.own ∧ t.prog.loc.proc = s.prog.loc.proc ∧ x = none := by
  induction es generalizing s with
  | nil => cases h; exact ⟨rfl, rfl, rfl⟩
  | cons e es ih =>
    simp only [run] at h
    split at h
    · cases h
    · cases h
    · rename_i hx
      cases h
      exact stopped_step A stopped fuel p manual hs hx
    · rename_i s1 hx
      obtain ⟨k1, k2, _⟩ := stopped_step A stopped fuel p manual hs hx
      obtain ⟨g1, g2, g3⟩ := ih s1 (by rw [k2]; exact hs) h
      exact ⟨g1.trans k1, g2.trans k2, g3⟩

/-- **C126** Between two key presses, as long as `run` is executing functions, and only then, each of the application's functions that are left can be executed; it writes its text. -/
theorem C126_between (A : App σ τ) (stopped : σ → Bool) (fuel : Nat) (p : Platform) (manual : α → α) (s : St σ τ α) (i : Nat) (r : Option (St σ τ α × Option Exn))
    (h : step A stopped fuel p manual s (.own i) = .ok r) :
    (r.isSome = true ↔ i < s.own.length ∧ s.prog.phase = .run ∧ s.prog.loc.busy = false ∧ stopped s.prog.loc.proc.w.app = false) ∧
    ∀ t x, r = some (t, x) → x = none ∧ ∃ text, s.own[i]? = some text ∧ t.own = s.own.eraseIdx i ∧ t.prog = write s.prog text ∧ t.prog.loc.proc.w.io.out = s.prog.loc.proc.w.io.out ++ text := by
  simp only [step] at h
  split at h
  · rename_i hc
    split at h
    · rename_i hn
      cases h
      refine ⟨⟨fun hh => absurd hh (by simp), fun hi => ?_⟩, fun _ _ hh => by cases hh⟩
      rw [List.getElem?_eq_getElem hi.1] at hn; cases hn
    · rename_i text ht
      cases h
      refine ⟨⟨fun _ => ⟨(List.getElem?_eq_some_iff.1 ht).1, hc⟩, fun _ => rfl⟩, ?_⟩
      intro t x hh
      simp only [Option.some.injEq, Prod.mk.injEq] at hh
      obtain ⟨h1, h2⟩ := hh
      subst h1
      exact ⟨h2.symm, text, ht, rfl, rfl, rfl⟩
  · rename_i hc
    cases h
    exact ⟨⟨fun hh => absurd hh (by simp), fun hi => absurd hi.2 hc⟩, fun _ _ hh => by cases hh⟩

/-! ### The example -/

/-- The program of the example with a terminal, before anything is typed and before the timer expires. -/
def opened : Option (St Iface Storage.Volatile Bool) :=
  match interface Props.plat (fun _ => false) true true with
  | .ok (l, none) => some ⟨⟨l, .run⟩, timer⟩
  | _ => none

/-- What it comes to: what has been written, where the main thread is, the line being edited, and whether the timer has not expired. -/
def watch (es : List (Ev Bool)) : Option (Str × Program.Phase × Terminal.Term × List Str) :=
  match opened with
  | none => none
  | some s =>
    match run (app Props.plat) (·.stopped) 2 Props.plat (fun _ => false) es s with
    | .ok (some (s, none)) => some (s.prog.loc.proc.w.io.out, s.prog.phase, s.prog.loc.proc.term, s.own)
    | _ => none

/-- A character is typed, read, and handled. -/
def stroke (c : Byte) : List (Ev Bool) := (Showcase.stroke c).map .prog

def finish : List (Ev Bool) := [.prog .ret, .prog .destroy, .prog (.kb .check), .prog (.kb .ready), .prog .join]

/-- The timer expires in the middle of a command, which is executed nevertheless. -/
example : watch ((bs!"he").flatMap stroke ++ [.own 0] ++ (bs!"llo\n").flatMap stroke) =
    some (bs!"cli\x1b[0m> h\x1b[0me\x1b[0mTimer expired!\nl\x1b[0ml\x1b[0mo\x1b[0m\r\nHello, world\ncli\x1b[0m> ", .run, ⟨[], 0⟩, []) := by decide +kernel

/-- **C126** In the example, whatever has been typed before, the timer expires at most once, and then the text of line 113 is written. -/
theorem C126_timer (es : List (Ev Bool)) (s t u : St Iface Storage.Volatile Bool) (i : Nat) (x : Option Exn) (h0 : opened = some s) (h : run (app Props.plat) (·.stopped) 2 Props.plat (fun _ => false) es s = .ok (some (t, none)))
    (h1 : step (app Props.plat) (·.stopped) 2 Props.plat (fun _ => false) t (.own i) = .ok (some (u, x))) :
    u.prog.loc.proc.w.io.out = t.prog.loc.proc.w.io.out ++ bs!"Timer expired!\n" ∧ u.own = [] := by
  obtain ⟨_, texts, _, _, hp⟩ := C126_same_partial _ _ _ _ _ es s t none h
  obtain ⟨_, text, g1, g2, _, g4⟩ := (C126_between _ _ _ _ _ t i _ h1).2 u x rfl
  have ho : s.own = [bs!"Timer expired!\n"] := by
    unfold opened at h0
    split at h0
    · cases h0; rfl
    · cases h0
  rw [ho] at hp
  have hm : text ∈ texts ++ t.own := by simp [List.mem_of_getElem? g1]
  have ht : text = bs!"Timer expired!\n" := by simpa using hp.subset hm
  have hl := hp.length_eq
  have hi : i < t.own.length := (List.getElem?_eq_some_iff.1 g1).1
  simp only [List.length_append, List.length_cons, List.length_nil] at hl
  refine ⟨by rw [g4, ht], ?_⟩
  rw [g2, ← List.length_eq_zero_iff, List.length_eraseIdx]
  simp only [hi, if_true]; omega

/-- The program ends before the timer expires. -/
example : watch ((bs!"exit\n").flatMap stroke ++ finish) =
    some (bs!"cli\x1b[0m> e\x1b[0mx\x1b[0mi\x1b[0mt\x1b[0m\r\nClosing App...\nGoodbye and thanks for all the fish.\n", .over, ⟨[], 0⟩, timer) := by decide +kernel

/-- The timer does not expire twice, nor after `Stop`. -/
example : watch [.own 0, .own 0] = none ∧ watch ((bs!"exit\n").flatMap stroke ++ [.own 0]) = none := by decide +kernel

/-- What the screen of a new window looks like. -/
def blank : Screen := scr (fun _ _ => b%' ') 0 0 [] 0

theorem watched {es : List (Ev Bool)} {out : Str} {ph : Program.Phase} {tm : Terminal.Term} {own : List Str} (h : watch es = some (out, ph, tm, own)) :
    ∃ s t, opened = some s ∧ run (app Props.plat) (·.stopped) 2 Props.plat (fun _ => false) es s = .ok (some (t, none)) ∧ t.prog.loc.proc.w.io.out = out ∧ t.prog.loc.proc.term = tm := by
  unfold watch at h
  split at h
  · cases h
  · rename_i s hs
    split at h
    · rename_i t ht
      simp only [Option.some.injEq, Prod.mk.injEq] at h
      exact ⟨s, t, hs, ht, h.1, h.2.2.1⟩
    · cases h

/-- **C126** (refuted) The line being edited does not stay on the screen: when the timer of the example expires after the user has typed `h`, the row of the cursor is empty, there is neither the prompt nor what has been typed, which is still
    the line being edited; without the timer, the row of the cursor shows both. -/
theorem C126_screen_refuted : ∃ (s t u : St Iface Storage.Volatile Bool) (es : List (Ev Bool)), opened = some s ∧ run (app Props.plat) (·.stopped) 2 Props.plat (fun _ => false) es s = .ok (some (t, none)) ∧
    run (app Props.plat) (·.stopped) 2 Props.plat (fun _ => false) (es ++ [.own 0]) s = .ok (some (u, none)) ∧ t.prog.loc.proc.term = ⟨bs!"h", 1⟩ ∧ u.prog.loc.proc.term = ⟨bs!"h", 1⟩ ∧
    (let d := blank.run t.prog.loc.proc.w.io.out; (List.range 6).map (d.cell d.row) = bs!"cli> h" ∧ d.col = 6) ∧
    (let d := blank.run u.prog.loc.proc.w.io.out; (∀ c, d.cell d.row c = b%' ') ∧ d.col = 0) := by
  obtain ⟨s, t, h1, h2, h3, h4⟩ := watched (es := stroke b%'h') (out := bs!"cli\x1b[0m> h\x1b[0m") (ph := .run) (tm := ⟨bs!"h", 1⟩) (own := timer) (by decide +kernel)
  obtain ⟨s', u, g1, g2, g3, g4⟩ := watched (es := stroke b%'h' ++ [.own 0]) (out := bs!"cli\x1b[0m> h\x1b[0mTimer expired!\n") (ph := .run) (tm := ⟨bs!"h", 1⟩) (own := []) (by decide +kernel)
  rw [h1] at g1
  cases g1
  refine ⟨s, t, u, stroke b%'h', h1, h2, g2, h4, g4, ?_, ?_⟩
  · rw [h3]; exact ⟨by decide +kernel, by decide +kernel⟩
  · rw [g3]; exact ⟨fun c => rfl, by decide +kernel⟩

end Verif.Hosted
