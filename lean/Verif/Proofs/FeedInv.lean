import Verif.Proofs.FeedParts

set_option linter.unusedSimpArgs false

/-!
# Invariants of `Feed`: at most one handler, no use of destroyed menus
-/

namespace Verif
open Spec
open FromString (Value ConvErr)

variable {σ τ : Type}

/-- Neither the command handlers nor the exception handler nor the exit actions nor the history storage throw `std::bad_cast`. -/
structure App.Tame (A : App σ τ) : Prop where
  handlers : A.NoBadCast
  exception : ∀ f, A.onException = some f → ∀ s l e what, (f s l e).exn ≠ some (.badCast what)
  exitSession : ∀ f, A.exitSession = some f → ∀ s what, (f s).exn ≠ some (.badCast what)
  storage : ∀ t c what, A.storeFails t c ≠ some (.badCast what)
  exitGlobal : ∀ f, A.exitGlobal = some f → ∀ s what, (f s).exn ≠ some (.badCast what)

section
variable (A : App σ τ)

/-- What can go wrong in converting arguments. -/
def ConvFault (f : Fault) : Prop := ∃ p ty s u, FromString.fromString p ty s = .error (.ub u) ∧ f = .ub u

theorem convert_ub (p : Platform) (ps : List Param) : ∀ (args : List Str) (u : UB), args.length = ps.length → convert p ps args = .error (.ub u) →
    ConvFault (.ub u) := by
  induction ps with
  | nil =>
    intro args u hl h
    cases args with
    | nil => cases h
    | cons a as => simp at hl
  | cons q qs ih =>
    intro args u hl h
    cases args with
    | nil => simp at hl
    | cons a as =>
      simp only [convert, bind, Except.bind, pure, Except.pure] at h
      cases hv : FromString.fromString p q.ty a with
      | error e => rw [hv] at h; simp only [Except.error.injEq] at h; subst h; exact ⟨p, _, _, _, hv, rfl⟩
      | ok v =>
        rw [hv] at h
        simp only at h
        cases hvs : convert p qs as with
        | error e =>
          rw [hvs] at h
          simp only [Except.error.injEq] at h
          subst h
          exact ih as u (by simpa using hl) hvs
        | ok vs => rw [hvs] at h; cases h

theorem verdict_crash (p : Platform) (c : Cmd) (args : List Str) (u : UB) (h : verdict p c args = .crash u) : ConvFault (.ub u) := by
  unfold verdict at h
  split at h
  · split at h
    · cases h
    · rename_i ps _ hl
      cases hc : convert p ps args with
      | ok v => rw [hc] at h; cases h
      | error e =>
        rw [hc] at h
        cases e with
        | bad => cases h
        | exn e => cases e <;> cases h
        | ub u' => cases h; exact convert_ub p ps args _ (by simpa using hl) hc
  · cases h

/-- The search in the current menu, if no handler throws `bad_cast`. -/
theorem scanCurrent_cases (hA : A.NoBadCast) (toks : List Str) (ht : toks ≠ []) (w : World σ τ) (hc : w.tree.locate w.current ≠ none) :
    scanCurrent A toks w = .ok (w, .notFound) ∨
    (∃ m k q path, w.tree.locate w.current = some path ∧ DesignatesMenu w.dis path toks ((m, k) :: q) ∧
      scanCurrent A toks w = .ok ({ w with current := m.id }, .found)) ∨
    (∃ e, scanCurrent A toks w = .ok (w, .thrown e)) ∨
    (∃ c args vals o path, w.tree.locate w.current = some path ∧ DesignatesCmd w.dis path toks c args ∧ Accepts A.plat c args vals ∧ o ≠ .notFound ∧
      scanCurrent A toks w = .ok ((w.effect (A.handler c.fn w.app vals)).note (.ran c vals w.snap (A.handler c.fn w.app vals).exn), o)) ∨
    (∃ f, ConvFault f ∧ scanCurrent A toks w = .error f) := by
  cases hp : w.tree.locate w.current with
  | none => exact absurd hp hc
  | some path =>
    have hs : scanCurrent A toks w = scanCmds A toks path w := by simp only [scanCurrent, hp]
    rw [hs]
    have hst := starts_scanCmds A w toks ht path
    rcases first_or_none A.plat (cands w.dis toks path) with h1 | ⟨pre, x, post, h1, h2, h3⟩
    · exact .inl (hst.1 h1)
    · have hx : x ∈ cands w.dis toks path := by rw [h1]; simp
      have h4 := hst.2 pre x post h1 h2 h3
      obtain ⟨cs, x⟩ := x
      cases x with
      | menu q =>
        cases q with
        | nil =>
          have := (mem_cands _ _ _ _).1 hx
          exact absurd rfl (walk_ne_nil (des_walk this.2).2 (enabled_ne_nil this.1))
        | cons mk q =>
          refine .inr (.inl ⟨mk.1, mk.2, q, path, rfl, (designatesMenu_iff _ _ _ _).2 ⟨cs, hx⟩, ?_⟩)
          rw [h4 (by simp [take])]; rfl
      | cmd c args =>
        simp only [take] at h4
        cases hv : verdict A.plat c args with
        | reject => exact absurd ⟨c, args, rfl, hv⟩ h3
        | raise e => exact .inr (.inr (.inl ⟨e, by rw [h4 (by simp [perform, hv])]; simp [perform, hv]⟩))
        | crash u =>
          exact .inr (.inr (.inr (.inr ⟨.ub u, verdict_crash _ _ _ _ hv, by rw [h4 (by simp [perform, hv])]; simp [perform, hv]⟩)))
        | run vals =>
          have ha := (verdict_run A.plat c args vals).1 hv
          have hd := (designatesCmd_iff _ _ _ _ _).2 ⟨cs, hx⟩
          have hpf := perform_run' A c args vals w hv (fun ⟨_, what, h⟩ => hA _ _ _ _ h)
          have h5 : scanCmds A toks path w = perform A c args w := by
            apply h4
            intro w'
            rw [hpf]
            split <;> simp
          rw [h5, hpf]
          cases hx : (A.handler c.fn w.app vals).exn with
          | none => exact .inr (.inr (.inr (.inl ⟨c, args, vals, .found, path, rfl, hd, ha, by simp, by rw [hx]⟩)))
          | some e => exact .inr (.inr (.inr (.inl ⟨c, args, vals, .thrown e, path, rfl, hd, ha, by simp, by rw [hx]⟩)))

theorem catchAll_exn (hA : A.Tame) (line : Str) (r : Res σ τ) (w' : World σ τ) (what : Str) : catchAll A line r ≠ .ok (w', some (.badCast what)) := by
  intro h
  unfold catchAll at h
  split at h
  · cases h
  · cases h
  · rename_i w e _
    simp only [Except.ok.injEq, reportException] at h
    split at h
    · rename_i f hf
      have := hA.exception f hf (w.note (.reported line e)).app line e what
      rw [Prod.mk.injEq] at h
      exact this h.2
    · rw [Prod.mk.injEq] at h; cases h.2
  · cases h

theorem feed_exn (hA : A.Tame) (fuel : Nat) (line : Str) (w w' : World σ τ) (what : Str) : feed A fuel line w ≠ .ok (w', some (.badCast what)) := by
  cases fuel with
  | zero => intro h; cases h
  | succ fuel =>
    obtain ⟨toks, hl⟩ := line_exists line
    by_cases ht : toks = []
    · subst ht; rw [feed_blank A hl]; simp
    · rw [feed_eq A hl ht]
      split
      · simp
      · exact catchAll_exn A hA _ _ _ _

theorem exit_exn (hA : A.Tame) (w w' : World σ τ) (what : Str) : exitSession A w ≠ .ok (w', some (.badCast what)) := by
  intro h
  unfold exitSession at h
  split at h
  · cases h
  · rename_i f hf
    split at h
    · rename_i he
      cases h
      simp only [callAction, Prod.mk.injEq] at he
      exact hA.exitSession f hf _ _ he.2
    · split at h
      · rename_i he
        cases h
        cases hg : A.exitGlobal with
        | none => rw [hg] at he; simp [optAction] at he
        | some g =>
          rw [hg] at he
          simp only [optAction, callAction, Prod.mk.injEq] at he
          exact hA.exitGlobal g hg _ _ he.2
      · split at h
        · cases h
        · split at h
          · rename_i hs; cases h; exact hA.storage _ _ _ hs
          · cases h

theorem builtinOutcome_found {x : Option Exn} (h : builtinOutcome x = .notFound) : ∃ what, x = some (.badCast what) := by
  cases x with
  | none => cases h
  | some e => cases e with
    | badCast s => exact ⟨s, rfl⟩
    | std s => cases h
    | other => cases h

/-- With tame user code, a built-in command ends the search. -/
theorem scanGlobal_notFound (hA : A.Tame) (fuel : Nat) (toks : List Str) (ht : toks ≠ []) (w w' : World σ τ)
    (h : scanGlobal A (feed A fuel) toks w = .ok (w', .notFound)) : w' = w ∧ ∀ b, ¬ GlobalLine toks b := by
  rcases scanGlobal_cases A (feed A fuel) toks ht w with ⟨h1, h2⟩ | ⟨_, h2, _⟩ | ⟨_, h2⟩ | ⟨_, h2⟩ | ⟨_, h2⟩ | ⟨arg, n, _, _, _, h2⟩ <;> rw [h2] at h
  · cases h; exact ⟨rfl, h1⟩
  · cases h
  · unfold helpPart at h; split at h <;> cases h
  · unfold exitPart at h
    split at h
    · cases h
    · rename_i he
      simp only [Except.ok.injEq, Prod.mk.injEq] at h
      obtain ⟨what, rfl⟩ := builtinOutcome_found h.2
      exact absurd he (exit_exn A hA _ _ _)
  · unfold historyPart at h; cases h
  · unfold bangPart at h
    split at h
    · cases h
    · split at h
      · cases h
      · cases h
      · split at h
        · cases h
        · rename_i he
          simp only [Except.ok.injEq, Prod.mk.injEq] at h
          obtain ⟨what, rfl⟩ := builtinOutcome_found h.2
          exact absurd he (feed_exn A hA _ _ _ _ _)

theorem calls_append (a b : List Event) : calls (a ++ b) = calls a ++ calls b := by simp [calls, List.filterMap_append]

theorem calls_noRan {evs : List Event} (h : ∀ e ∈ evs, isRan e = false) : calls evs = [] := by
  simp only [calls, List.filterMap_eq_nil_iff]
  intro e he
  have := h e he
  cases e <;> simp_all [isRan]

/-- Only events that are no handler calls; the current menu stays. -/
def Calm (w w' : World σ τ) : Prop := Quiet w w' ∧ w'.current = w.current

theorem calm_refl (w : World σ τ) : Calm w w := ⟨quiet_refl w, rfl⟩

theorem calm_trans {a b c : World σ τ} (h1 : Calm a b) (h2 : Calm b c) : Calm a c := ⟨quiet_trans h1.1 h2.1, h2.2.trans h1.2⟩

theorem calm_effect (w : World σ τ) (e : Effect σ) : Calm w (w.effect e) := ⟨quiet_effect w e, (effect_same w e).1.current⟩

theorem calm_optAction (a : Option (σ → Effect σ)) (ev : Event) (he : isRan ev = false) (w : World σ τ) : Calm w (optAction a ev w).1 := by
  refine ⟨quiet_optAction a ev he w, ?_⟩
  cases a with
  | none => rfl
  | some f => exact (effect_same (w.note ev) (f w.app)).1.current

theorem exitSession_eq (w : World σ τ) : exitSession A w =
    match A.exitSession with
    | none => .ok (w, some (.std bs!"bad_function_call"))
    | some f =>
      match optAction (some f) .exitSession w with
      | (w, some e) => .ok (w, some e)
      | (w, none) =>
        match optAction A.exitGlobal .exitGlobal w with
        | (w, some e) => .ok (w, some e)
        | (w, none) =>
          match History.getCommands w.hist with
          | .error f => .error f
          | .ok cmds =>
            match A.storeFails w.storage cmds with
            | some e => .ok ({ w with storage := A.store w.storage cmds }, some e)
            | none => .ok ({ w.note (.saved cmds) with storage := A.store w.storage cmds, exit := true }, none) := rfl

theorem calm_exit (w w' : World σ τ) (x : Option Exn) (h : exitSession A w = .ok (w', x)) : Calm w w' := by
  refine ⟨quiet_exit A w w' x h, ?_⟩
  rw [exitSession_eq] at h
  split at h
  · cases h; rfl
  · rename_i f hf
    have q1 := (calm_optAction (some f) .exitSession rfl w).2
    split at h
    · rename_i he; rw [he] at q1; cases h; exact q1
    · rename_i w1 he
      rw [he] at q1
      have q2 := (calm_optAction A.exitGlobal .exitGlobal rfl w1).2
      split at h
      · rename_i hg; rw [hg] at q2; cases h; exact q2.trans q1
      · rename_i w2 hg
        rw [hg] at q2
        split at h
        · cases h
        · split at h <;> (cases h; exact q2.trans q1)

theorem calm_wrong (line : Str) (w : World σ τ) : Calm w (wrongCommand A line w).1 := by
  refine ⟨quiet_wrong A line w, ?_⟩
  unfold wrongCommand
  simp only
  split
  · exact (effect_same (w.note (.wrong line)) _).1.current
  · rfl

theorem calm_catchAll (line : Str) (w w' : World σ τ) (o : Outcome) (x : Option Exn) (h : catchAll A line (.ok (w, o)) = .ok (w', x)) :
    Calm w w' := by
  refine ⟨quiet_catchAll A line w w' o x h, ?_⟩
  unfold catchAll at h
  split at h
  · cases h
  · rename_i he; cases he; cases h; rfl
  · rename_i he; cases he
    simp only [Except.ok.injEq] at h
    rw [show w' = (reportException A line _ w).1 from by rw [h]]
    unfold reportException
    simp only
    split
    · exact (effect_same (w.note (.reported line _)) _).1.current
    · rfl
  · rename_i he; cases he; cases h; rfl

/-- What feeding a line does with tame user code: nothing but built-in things, or a menu is entered, or one handler is called;
    menu or command designated by one of the lines `S`. -/
def TameStep (S : List Str) (w w' : World σ τ) : Prop := ∃ evs, w'.log = w.log ++ evs ∧
  ((calls evs = [] ∧ w'.current = w.current) ∨
   (∃ l ∈ S, ∃ toks path m k q, calls evs = [] ∧ Lex.Line l toks ∧ w.tree.locate w.current = some path ∧
      DesignatesMenu w.dis path toks ((m, k) :: q) ∧ w'.current = m.id) ∨
   (∃ l ∈ S, ∃ toks path c args vals, calls evs = [(c, vals)] ∧ Lex.Line l toks ∧ w.tree.locate w.current = some path ∧
      DesignatesCmd w.dis path toks c args ∧ Accepts A.plat c args vals ∧ w'.current = w.current))

theorem tame_calm {S : List Str} {w w' : World σ τ} (h : Calm w w') : TameStep A S w w' := by
  obtain ⟨⟨evs, h1, h2⟩, h3⟩ := h
  exact ⟨evs, h1, .inl ⟨calls_noRan h2, h3⟩⟩

theorem tame_after {S : List Str} {w w1 w2 : World σ τ} (h1 : TameStep A S w w1) (h2 : Calm w1 w2) : TameStep A S w w2 := by
  obtain ⟨e1, l1, h1⟩ := h1
  obtain ⟨⟨e2, l2, q2⟩, c2⟩ := h2
  have hc : calls (e1 ++ e2) = calls e1 := by rw [calls_append, calls_noRan q2, List.append_nil]
  exact ⟨e1 ++ e2, by rw [l2, l1, List.append_assoc], by rw [hc, c2]; exact h1⟩

theorem tame_before {S : List Str} {w w1 w2 : World σ τ} (h1 : Calm w w1) (ht : w1.tree = w.tree) (hd : w1.dis = w.dis) (h2 : TameStep A S w1 w2) :
    TameStep A S w w2 := by
  obtain ⟨⟨e1, l1, q1⟩, c1⟩ := h1
  obtain ⟨e2, l2, h2⟩ := h2
  have hc : calls (e1 ++ e2) = calls e2 := by rw [calls_append, calls_noRan q1, List.nil_append]
  exact ⟨e1 ++ e2, by rw [l2, l1, List.append_assoc], by rw [hc, ← c1, ← ht, ← hd]; exact h2⟩

theorem tame_scanCurrent (hA : A.NoBadCast) {line : Str} {toks : List Str} (hl : Lex.Line line toks) (ht : toks ≠ []) (S : List Str) (hS : line ∈ S)
    (w w' : World σ τ) (o : Outcome) (h : scanCurrent A toks w = .ok (w', o)) : TameStep A S w w' := by
  have hc : w.tree.locate w.current ≠ none := by
    intro hn
    simp only [scanCurrent, hn] at h
    cases h
  rcases scanCurrent_cases A hA toks ht w hc with h1 | ⟨m, k, q, path, hp, hd, h1⟩ | ⟨e, h1⟩ | ⟨c, args, vals, o', path, hp, hd, ha, ho, h1⟩ | ⟨f, _, h1⟩ <;>
    rw [h1] at h
  · cases h; exact tame_calm A (calm_refl w)
  · cases h; exact ⟨[], by simp, .inr (.inl ⟨line, hS, toks, path, m, k, q, rfl, hl, hp, hd, rfl⟩)⟩
  · cases h; exact tame_calm A (calm_refl w)
  · cases h
    obtain ⟨s1, s2, _⟩ := effect_same w (A.handler c.fn w.app vals)
    refine ⟨[.ran c vals w.snap (A.handler c.fn w.app vals).exn], by simp [World.note, s2], .inr (.inr ⟨line, hS, toks, path, c, args, vals, rfl, hl, hp, hd, ha, s1.current⟩)⟩
  · cases h

theorem tame_userPart (hA : A.NoBadCast) {line : Str} {toks : List Str} (hl : Lex.Line line toks) (ht : toks ≠ []) (S : List Str) (hS : line ∈ S)
    (w w' : World σ τ) (o : Outcome) (h : userPart A line toks w = .ok (w', o)) : TameStep A S w w' := by
  unfold userPart at h
  split at h
  · rename_i w1 hs
    have h1 := tame_scanCurrent A hA hl ht S hS _ _ _ hs
    have q := calm_wrong A line w1
    split at h
    · rename_i hw; rw [hw] at q; cases h; exact tame_after A h1 q
    · rename_i hw; rw [hw] at q; cases h; exact tame_after A h1 q
  · exact tame_scanCurrent A hA hl ht S hS _ _ _ h

theorem tame_mono {S S' : List Str} {w w' : World σ τ} (hS : ∀ l ∈ S, l ∈ S') (h : TameStep A S w w') : TameStep A S' w w' := by
  obtain ⟨evs, h1, h2⟩ := h
  refine ⟨evs, h1, ?_⟩
  rcases h2 with h | ⟨l, hl, h⟩ | ⟨l, hl, h⟩
  · exact .inl h
  · exact .inr (.inl ⟨l, hS l hl, h⟩)
  · exact .inr (.inr ⟨l, hS l hl, h⟩)

theorem feed_tame (hA : A.Tame) (fuel : Nat) : ∀ (line : Str) (w w' : World σ τ) (x : Option Exn), feed A fuel line w = .ok (w', x) →
    TameStep A (line :: w.hist.buffer) w w' := by
  induction fuel with
  | zero => intro line w w' x h; cases h
  | succ fuel ih =>
    intro line w w' x h
    obtain ⟨toks, hl⟩ := line_exists line
    by_cases ht : toks = []
    · subst ht; rw [feed_blank A hl] at h; cases h; exact tame_calm A (calm_refl w)
    · rw [feed_eq A hl ht] at h
      split at h
      · cases h
      · rename_i h1 hh
        have base : Calm w (w.entered h1) := ⟨⟨[], by simp [World.entered], by simp⟩, rfl⟩
        have key : ∀ w2 o, body A (feed A fuel) line toks (w.entered h1) = .ok (w2, o) → TameStep A (line :: w.hist.buffer) (w.entered h1) w2 := by
          intro w2 o hb
          unfold body at hb
          split at hb
          · rename_i w3 hg
            obtain ⟨rfl, _⟩ := scanGlobal_notFound A hA fuel toks ht _ _ hg
            exact tame_userPart A hA.handlers hl ht _ (by simp) _ _ _ hb
          · rcases scanGlobal_cases A (feed A fuel) toks ht (w.entered h1) with ⟨_, h2⟩ | ⟨_, h2, _⟩ | ⟨_, h2⟩ | ⟨_, h2⟩ | ⟨_, h2⟩ | ⟨arg, n, _, _, _, h2⟩ <;>
              rw [h2] at hb
            · cases hb; exact tame_calm A (calm_refl _)
            · cases hb
            · unfold helpPart at hb
              split at hb
              · cases hb
              · rename_i he
                cases hb
                unfold helpCmd at he
                split at he
                · cases he
                · cases he; exact tame_calm A ⟨⟨[.builtin .help], rfl, by simp [isRan]⟩, rfl⟩
            · unfold exitPart at hb
              split at hb
              · cases hb
              · rename_i he
                cases hb
                exact tame_calm A (calm_trans ⟨quiet_note _ (.builtin .exit) rfl, rfl⟩ (calm_exit A _ _ _ he))
            · cases hb; exact tame_calm A ⟨⟨[.builtin .history], rfl, by simp [isRan]⟩, rfl⟩
            · unfold bangPart at hb
              split at hb
              · cases hb
              · rename_i h2 hf
                split at hb
                · cases hb
                · cases hb; exact tame_calm A ⟨⟨[.builtin (.bang n)], rfl, by simp [isRan]⟩, rfl⟩
                · rename_i cmd hat
                  split at hb
                  · cases hb
                  · rename_i hfd
                    cases hb
                    have hsub : ∀ l ∈ h2.buffer, l ∈ line :: w.hist.buffer := fun l hl => newCommand_mem hh l (forget_mem hf l hl)
                    refine tame_before A (w1 := { (w.entered h1).note (.builtin (.bang n)) with hist := h2 })
                      ⟨⟨[.builtin (.bang n)], rfl, by simp [isRan]⟩, rfl⟩ rfl rfl (tame_mono A ?_ (ih _ _ _ _ hfd))
                    intro l hl
                    rw [List.mem_cons] at hl
                    rcases hl with rfl | hl
                    · exact hsub _ (at_mem hat)
                    · exact hsub _ hl
        cases hb : body A (feed A fuel) line toks (w.entered h1) with
        | error f => rw [hb] at h; cases h
        | ok v =>
          obtain ⟨w2, o⟩ := v
          rw [hb] at h
          exact tame_after A (tame_before A base rfl rfl (key _ _ hb)) (calm_catchAll A line _ _ _ _ h)

/-! ### Faults -/

/-- What can go wrong while a line is executed with tame user code, if the current menu exists. -/
def Unavoidable (f : Fault) : Prop := f = .stackOverflow ∨ ConvFault f ∨ f = .ub .outOfRange ∨ f = .ub .emptyContainer

theorem newCommand_fault {h : History.History} {l : Str} {f : Fault} (hh : History.newCommand h l = .error f) : f = .ub .emptyContainer := by
  unfold History.newCommand at hh
  simp only at hh
  split at hh
  · split at hh
    · cases hh; rfl
    · split at hh <;> cases hh
  · split at hh <;> cases hh

theorem forget_fault {h : History.History} {f : Fault} (hh : History.forgetLatest h = .error f) : f = .ub .emptyContainer := by
  unfold History.forgetLatest at hh
  split at hh <;> cases hh
  rfl

theorem at_fault {h : History.History} {n : Nat} {f : Fault} (hh : History.at h n = .error f) : f = .ub .outOfRange := by
  unfold History.at at hh
  split at hh
  · cases hh
  · split at hh <;> cases hh
    rfl

theorem getCommands_fault {h : History.History} {f : Fault} (hh : History.getCommands h = .error f) : f = .ub .outOfRange := by
  unfold History.getCommands at hh
  split at hh
  · split at hh <;> cases hh
    rfl
  · cases hh

theorem exit_fault (w : World σ τ) (f : Fault) (h : exitSession A w = .error f) : f = .ub .outOfRange := by
  rw [exitSession_eq] at h
  split at h
  · cases h
  · split at h
    · cases h
    · split at h
      · cases h
      · split at h
        · rename_i hg; cases h; exact getCommands_fault hg
        · split at h <;> cases h

theorem catchAll_fault (line : Str) (r : Res σ τ) (f : Fault) (h : catchAll A line r = .error f) : r = .error f := by
  unfold catchAll at h
  split at h <;> cases h
  rfl

theorem feed_fault (hA : A.Tame) (fuel : Nat) : ∀ (line : Str) (w : World σ τ) (f : Fault), w.tree.locate w.current ≠ none → feed A fuel line w = .error f →
    Unavoidable f := by
  induction fuel with
  | zero => intro line w f _ h; cases h; exact .inl rfl
  | succ fuel ih =>
    intro line w f hc h
    obtain ⟨toks, hl⟩ := line_exists line
    by_cases ht : toks = []
    · subst ht; rw [feed_blank A hl] at h; cases h
    · rw [feed_eq A hl ht] at h
      split at h
      · rename_i hh; cases h; exact .inr (.inr (.inr (newCommand_fault hh)))
      · rename_i h1 hh
        have hb := catchAll_fault A line _ f h
        unfold body at hb
        split at hb
        · rename_i w3 hg
          obtain ⟨rfl, _⟩ := scanGlobal_notFound A hA fuel toks ht _ _ hg
          unfold userPart at hb
          split at hb
          · split at hb <;> cases hb
          · rcases scanCurrent_cases A hA.handlers toks ht (w.entered h1) hc with h1 | ⟨m, k, q, path, hp, hd, h1⟩ | ⟨e, h1⟩ | ⟨c, args, vals, o', path, hp, hd, ha, ho, h1⟩ | ⟨f', hf', h1⟩ <;>
              rw [h1] at hb <;> cases hb
            exact .inr (.inl hf')
        · rcases scanGlobal_cases A (feed A fuel) toks ht (w.entered h1) with ⟨_, h2⟩ | ⟨_, h2, arg, _, c, hcm, hub⟩ | ⟨_, h2⟩ | ⟨_, h2⟩ | ⟨_, h2⟩ | ⟨arg, n, _, _, _, h2⟩ <;>
              rw [h2] at hb
          · cases hb
          · cases hb
            refine .inr (.inl ⟨A.plat, .unsigned .w32, [c], .ctype, ?_, rfl⟩)
            have h43 : c ≠ b%'+' := by
              rintro rfl
              simp [Platform.ctypeUB] at hub
            simp [FromString.fromString, FromString.unsignedFromString, FromString.unsignedDigits, FromString.digitsLoop, FromString.isdigit, hub, h43, Except.map, bind, Except.bind]
          · unfold helpPart at hb
            split at hb
            · rename_i he
              cases hb
              unfold helpCmd at he
              split at he
              · rename_i hn; exact absurd hn hc
              · cases he
            · cases hb
          · unfold exitPart at hb
            split at hb
            · rename_i he; cases hb; exact .inr (.inr (.inl (exit_fault A _ _ he)))
            · cases hb
          · cases hb
          · unfold bangPart at hb
            split at hb
            · rename_i hf; cases hb; exact .inr (.inr (.inr (forget_fault hf)))
            · split at hb
              · rename_i hat; cases hb; exact .inr (.inr (.inl (at_fault hat)))
              · cases hb
              · split at hb
                · rename_i hfd; cases hb; refine ih _ _ _ ?_ hfd; exact hc
                · cases hb

end
end Verif
