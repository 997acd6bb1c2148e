import Verif.Spec.Hooks
import Verif.Proofs.Reentrant

/-!
# Proofs about actions and error handlers that use the session
-/

set_option linter.unusedSimpArgs false

namespace Verif.Hooks
open Spec
open FromString (Value)
open Reentrant (Method Prog RApp)

variable {σ τ : Type}

/-! ### `Feed` in parts -/

section
variable (H : HApp σ τ) (I : Inner σ τ)

/-- What happens after a line has been split and recorded. -/
def body (line : Str) (toks : List Str) (w : World σ τ) : Res σ τ :=
  match scanGlobal H I toks w with
  | .ok (w, .notFound) => userPart H I line toks w
  | r => r

theorem feedWith_eq {line : Str} {toks : List Str} (hl : Lex.Line line toks) (ht : toks ≠ []) (w : World σ τ) :
    feedWith H I line w =
      match History.newCommand w.hist line with
      | .error f => .error f
      | .ok h => catchAll H I line (body H I line toks (w.entered h)) := by
  simp only [feedWith, (split_iff _ _).2 hl, ht, if_false]
  cases History.newCommand w.hist line with
  | error f => rfl
  | ok h => rfl

theorem feedWith_blank {line : Str} (hl : Lex.Line line []) (w : World σ τ) : feedWith H I line w = .ok (w, none) := by
  simp [feedWith, (split_iff _ _).2 hl]

/-- But for `exit` the built-in commands are those of the other models. -/
theorem scanGlobal_rest (toks : List Str) (hx : toks ≠ [bs!"exit"]) (w : World σ τ) : scanGlobal H I toks w = Verif.scanGlobal H.rest I.feed toks w := by
  match toks with
  | [] => rfl
  | [t] =>
    have ht : t ≠ bs!"exit" := fun h => hx (by rw [h])
    simp only [scanGlobal, Verif.scanGlobal, bind, Except.bind, if_neg ht]
    split
    · cases helpCmd (w.note (.builtin .help)) <;> rfl
    · rfl
  | [t, arg] =>
    simp only [scanGlobal, Verif.scanGlobal, method, bind, Except.bind]
    split
    · cases FromString.unsignedFromString H.rest.plat .w32 arg with
      | error e => cases e <;> rfl
      | ok n =>
        have hh : (w.note (.builtin (.bang n))).hist = w.hist := rfl
        simp only [hh]
        cases History.forgetLatest w.hist with
        | error f => rfl
        | ok h =>
          simp only
          cases History.at h n with
          | error f => rfl
          | ok o =>
            cases o with
            | none => rfl
            | some cmd =>
              simp only
              cases I.feed cmd { w.note (.builtin (.bang n)) with hist := h } <;> rfl
    · rfl
  | _ :: _ :: _ :: _ => rfl

/-- The command `exit`. -/
def exitPart (w : World σ τ) : Res σ τ :=
  match exit H I (w.note (.builtin .exit)) with
  | .error f => .error f
  | .ok (w, x) => .ok (w, builtinOutcome x)

theorem scanGlobal_exit (w : World σ τ) : scanGlobal H I [bs!"exit"] w = exitPart H I w := by
  simp only [scanGlobal, exitPart]
  rfl

theorem scanGlobal_cases (toks : List Str) (ht : toks ≠ []) (w : World σ τ) :
    ((∀ b, ¬ GlobalLine toks b) ∧ scanGlobal H I toks w = .ok (w, .notFound)) ∨
    ((∀ b, ¬ GlobalLine toks b) ∧ scanGlobal H I toks w = .error (.ub .ctype) ∧ ∃ arg, toks = [bs!"!", arg] ∧ ∃ c ∈ arg, H.rest.plat.ctypeUB c = true) ∨
    (toks = [bs!"help"] ∧ scanGlobal H I toks w = helpPart w) ∨
    (toks = [bs!"exit"] ∧ scanGlobal H I toks w = exitPart H I w) ∨
    (toks = [bs!"history"] ∧ scanGlobal H I toks w = historyPart w) ∨
    (∃ arg n, toks = [bs!"!", arg] ∧ Number.SpellsNat arg n ∧ n < 2 ^ 32 ∧ scanGlobal H I toks w = bangPart I.feed n w) := by
  by_cases hx : toks = [bs!"exit"]
  · subst hx; exact .inr (.inr (.inr (.inl ⟨rfl, scanGlobal_exit H I w⟩)))
  · rw [scanGlobal_rest H I toks hx w]
    rcases Verif.scanGlobal_cases H.rest I.feed toks ht w with h | h | h | ⟨h, _⟩ | h | h
    · exact .inl h
    · exact .inr (.inl h)
    · exact .inr (.inr (.inl h))
    · exact absurd h hx
    · exact .inr (.inr (.inr (.inr (.inl h))))
    · exact .inr (.inr (.inr (.inr (.inr h))))

/-- What is not a line of a built-in command is not executed as such. -/
theorem scanGlobal_user {toks : List Str} (ht : UserLine H.rest.plat toks) (w : World σ τ) : scanGlobal H I toks w = .ok (w, .notFound) := by
  rw [scanGlobal_rest H I toks (fun h => ht.notGlobal .exit (h ▸ .exit)), Verif.scanGlobal_user H.rest _ ht]

theorem feedWith_user {line : Str} {toks : List Str} (hl : Lex.Line line toks) (ht : UserLine H.rest.plat toks) (w : World σ τ) {h : History.History}
    (hh : History.newCommand w.hist line = .ok h) : feedWith H I line w = catchAll H I line (userPart H I line toks (w.entered h)) := by
  rw [feedWith_eq H I hl ht.nonempty, hh]
  simp only [body, scanGlobal_user H I ht]

end

/-! ### Functions that do not use the session -/

theorem run_acts (I : Inner σ τ) (ok : World σ τ → Bool) (x : Option Exn) (as : List Act) : ∀ w : World σ τ, run I ok (as.foldr .act (.ret x)) w = .ok (as.foldl World.act w, x) := by
  induction as with
  | nil => intro w; rfl
  | cons a as ih => intro w; exact ih (w.act a)

theorem hook_plain (I : Inner σ τ) (f : σ → Effect σ) (w : World σ τ) : hook I (plain f) w = .ok (w.effect (f w.app), (f w.app).exn) := by
  simp only [hook, plain, run, Prog.ofEffect]
  rw [run_acts]
  rfl

theorem optHook_plain (I : Inner σ τ) (f : Option (σ → Effect σ)) (ev : Event) (w : World σ τ) : optHook I (f.map plain) ev w = .ok (optAction f ev w) := by
  cases f with
  | none => rfl
  | some f => exact hook_plain I f (w.note ev)

theorem exit_ofR (R : RApp σ τ) (I : Inner σ τ) : exit (ofR R) I = exitSession R.base := by
  funext w
  unfold exit exitSession
  have h1 : R.base.exitSession = R.rest.exitSession := rfl
  have h2 : R.base.exitGlobal = R.rest.exitGlobal := rfl
  cases hf : R.rest.exitSession with
  | none => simp [ofR, h1, hf]
  | some f =>
    simp only [ofR, h1, h2, hf, Option.map_some, hook_plain, callAction]
    cases hx : (f (w.note .exitSession).app).exn with
    | some e => have hx' : (f w.app).exn = some e := hx; simp [hx, hx', World.note]
    | none =>
      have hx' : (f w.app).exn = none := hx
      simp only [hx', optHook_plain]
      have : (w.note .exitSession).effect (f (w.note .exitSession).app) = (w.note .exitSession).effect (f w.app) := rfl
      rw [this]
      rcases optAction R.rest.exitGlobal .exitGlobal ((w.note .exitSession).effect (f w.app)) with ⟨w2, _ | e⟩
      · rfl
      · rfl

theorem run_ofR (R : RApp σ τ) (I : Inner σ τ) (hx : I.exit = exitSession R.base) (c : Cmd) (q : Prog σ) :
    ∀ w : World σ τ, run I (fun w => decide (c.id ∈ w.tree.ids)) q w = Reentrant.run R I.feed c q w := by
  induction q with
  | ret x => intro w; rfl
  | get k ih => intro w; exact ih _ w
  | set s k ih => intro w; exact ih _
  | act a k ih => intro w; exact ih _
  | touch k ih => intro w; simp only [run, Reentrant.run, decide_eq_true_eq, ih]
  | call m k ih =>
    intro w
    have hm : method I m w = Reentrant.method R I.feed m w := by
      cases m with
      | exit => simp only [method, Reentrant.method, hx]
      | _ => rfl
    simp only [run, Reentrant.run, hm]
    cases Reentrant.method R I.feed m w with
    | error f => rfl
    | ok v => exact ih _ _

theorem scanGlobal_ofR (R : RApp σ τ) (I : Inner σ τ) (toks : List Str) (w : World σ τ) : scanGlobal (ofR R) I toks w = Verif.scanGlobal R.base I.feed toks w := by
  by_cases hx : toks = [bs!"exit"]
  · subst hx
    rw [scanGlobal_exit]
    simp only [exitPart, Verif.scanGlobal, exit_ofR, bind, Except.bind]
    cases he : exitSession R.base (w.note (.builtin .exit)) <;> rfl
  · exact scanGlobal_rest (ofR R) I toks hx w

theorem feedWith_ofR (R : RApp σ τ) (I : Inner σ τ) (hx : I.exit = exitSession R.base) (fuel : Nat) (hf : I.feed = Reentrant.feed R fuel) : feedWith (ofR R) I = Reentrant.feed R (fuel + 1) := by
  funext line w
  have hc : callProg (ofR R) I = Reentrant.callProg R (Reentrant.feed R fuel) := by
    funext c args w
    simp only [callProg, Reentrant.callProg]
    rw [run_ofR R I hx c, hf]
    rfl
  have hw : ∀ w, wrongCommand (ofR R) I line w = .ok (Verif.wrongCommand R.base line w) := by
    intro w
    simp only [wrongCommand, Verif.wrongCommand]
    have : R.base.onWrong = R.rest.onWrong := rfl
    rw [this]
    cases hh : R.rest.onWrong with
    | none => simp [ofR, hh]
    | some f => simp [ofR, hh, hook_plain]
  have hr : ∀ e w, reportException (ofR R) I line e w = .ok (Verif.reportException R.base line e w) := by
    intro e w
    simp only [reportException, Verif.reportException]
    have : R.base.onException = R.rest.onException := rfl
    rw [this]
    cases hh : R.rest.onException with
    | none => simp [ofR, hh]
    | some f => simp [ofR, hh, hook_plain]
  have hcatch : ∀ r, catchAll (ofR R) I line r = Verif.catchAll R.base line r := by
    intro r
    rcases r with f | ⟨w, o⟩
    · rfl
    · rcases o with _ | _ | e
      · rfl
      · rfl
      · cases e <;> first | rfl | exact hr _ _
  unfold feedWith Reentrant.feed
  simp only [bind, Except.bind]
  cases Split.split line with
  | error f => rfl
  | ok strs =>
    simp only
    split
    · rfl
    · cases History.newCommand w.hist line with
      | error f => rfl
      | ok h =>
        simp only [hcatch, scanGlobal_ofR, hf, userPart, hc, hw]
        congr 1
        rcases Verif.scanGlobal R.base (Reentrant.feed R fuel) strs { w with hist := h } with f | ⟨w1, o⟩
        · rfl
        · cases o with
          | found => rfl
          | thrown e => rfl
          | notFound =>
            simp only
            have hp : (ofR R).rest.plat = R.base.plat := rfl
            rw [hp]
            rcases Reentrant.scanCurrent R.base.plat (Reentrant.callProg R (Reentrant.feed R fuel)) strs w1 with f | ⟨w2, o⟩
            · rfl
            · cases o with
              | found => rfl
              | thrown e => rfl
              | notFound =>
                simp only
                rcases Verif.wrongCommand R.base line w2 with ⟨w3, _ | e⟩ <;> rfl

theorem inner_ofR (R : RApp σ τ) (fuel : Nat) : (inner (ofR R) fuel).feed = Reentrant.feed R fuel ∧ (inner (ofR R) fuel).exit = exitSession R.base := by
  induction fuel with
  | zero => exact ⟨rfl, exit_ofR R _⟩
  | succ fuel ih => exact ⟨feedWith_ofR R _ ih.2 fuel ih.1, exit_ofR R _⟩


/-! ### What the methods preserve -/

/-- The relation holds between the states before and after each of the things that executing a line consists of. -/
structure Frame (OK : Act → Prop) (P : Id → Prop) (Q : World σ τ → World σ τ → Prop) : Prop where
  refl : ∀ w, Q w w
  trans : ∀ {a b c}, Q a b → Q b c → Q a c
  set : ∀ (w : World σ τ) s, Q w { w with app := s }
  act : ∀ w a, OK a → Q w (w.act a)
  note : ∀ w e, Q w (w.note e)
  io : ∀ (w : World σ τ) i, Q w { w with io := i }
  hist : ∀ (w : World σ τ) h, Q w { w with hist := h }
  enter : ∀ (w : World σ τ) i, i ∈ w.tree.menuIds → Q w { w with current := i }
  goto : ∀ (w : World σ τ) i, P i → Q w { w with current := i }
  saved : ∀ (w : World σ τ) st, Q w { w with storage := st, exit := true }
  unsaved : ∀ (w : World σ τ) st, Q w { w with storage := st }

theorem frame_steady {OK : Act → Prop} {P : Id → Prop} {Q : World σ τ → World σ τ → Prop} (F : Frame OK P Q) :
    Frame OK P fun w w' : World σ τ => Q w w' ∧ Steady w w' := by
  have h0 : ∀ {w w' : World σ τ}, w'.gen = w.gen → w'.tree = w.tree → Steady w w' := fun h1 h2 => ⟨by omega, fun _ => h2⟩
  exact
    { refl := fun w => ⟨F.refl w, steady_refl w⟩
      trans := fun h1 h2 => ⟨F.trans h1.1 h2.1, steady_trans h1.2 h2.2⟩
      set := fun w s => ⟨F.set w s, h0 rfl rfl⟩
      act := fun w a ha => ⟨F.act w a ha, (act_same w a).2.2.1, (act_same w a).2.2.2⟩
      note := fun w e => ⟨F.note w e, h0 rfl rfl⟩
      io := fun w i => ⟨F.io w i, h0 rfl rfl⟩
      hist := fun w h => ⟨F.hist w h, h0 rfl rfl⟩
      enter := fun w i hi => ⟨F.enter w i hi, h0 rfl rfl⟩
      goto := fun w i hi => ⟨F.goto w i hi, h0 rfl rfl⟩
      saved := fun w st => ⟨F.saved w st, h0 rfl rfl⟩
      unsaved := fun w st => ⟨F.unsaved w st, h0 rfl rfl⟩ }

/-- The relation holds between the states before and after each call of these methods. -/
structure Keeps (Q : World σ τ → World σ τ → Prop) (I : Inner σ τ) : Prop where
  feed : ∀ line w w' x, I.feed line w = .ok (w', x) → Q w w'
  exit : ∀ w w' x, I.exit w = .ok (w', x) → Q w w'

section
variable {H : HApp σ τ} {OK : Act → Prop} {P : Id → Prop} {Q : World σ τ → World σ τ → Prop} (F : Frame OK P Q) {I : Inner σ τ} (hI : Keeps Q I)
include F hI

theorem keeps_method (m : Method) (hm : ∀ i, m = .goto i → P i) (w w' : World σ τ) (x : Option Exn) (h : method I m w = .ok (w', x)) : Q w w' := by
  cases m with
  | feed line => exact hI.feed _ _ _ _ h
  | exit => exact hI.exit _ _ _ h
  | prompt =>
    simp only [method] at h
    cases hp : Verif.prompt w with
    | error f => rw [hp] at h; cases h
    | ok w1 => rw [hp] at h; cases h; obtain ⟨i, rfl⟩ := Reentrant.prompt_io hp; exact F.io _ _
  | help =>
    simp only [method] at h
    cases hp : helpCmd w with
    | error f => rw [hp] at h; cases h
    | ok w1 => rw [hp] at h; cases h; obtain ⟨i, rfl⟩ := Reentrant.help_io hp; exact F.io _ _
  | history =>
    simp only [method] at h
    split at h <;> cases h
    · exact F.io _ _
    · exact F.refl _
  | again n =>
    simp only [method] at h
    split at h
    · cases h
    · split at h
      · cases h
      · cases h; exact F.hist _ _
      · exact F.trans (F.hist _ _) (hI.feed _ _ _ _ h)
  | goto i => cases h; exact F.goto _ _ (hm i rfl)

theorem keeps_run (ok : World σ τ → Bool) (q : Prog σ) :
    q.Uses OK P → ∀ (w w' : World σ τ) (x : Option Exn), run I ok q w = .ok (w', x) → Q w w' := by
  induction q with
  | ret x => intro _ w w' x h; cases h; exact F.refl _
  | get k ih => intro hu w w' x h; exact ih _ (hu _) _ _ _ h
  | set s k ih => intro hu w w' x h; exact F.trans (F.set w s) (ih hu _ _ _ h)
  | act a k ih => intro hu w w' x h; exact F.trans (F.act w a hu.1) (ih hu.2 _ _ _ h)
  | touch k ih =>
    intro hu w w' x h
    simp only [run] at h
    split at h
    · exact ih hu _ _ _ h
    · cases h
  | call m k ih =>
    intro hu w w' x h
    simp only [run] at h
    split at h
    · cases h
    · rename_i he
      exact F.trans (keeps_method F hI m hu.1 _ _ _ he) (ih _ (hu.2 _) _ _ _ h)

theorem keeps_opt (q : Option (Prog σ)) (hq : ∀ p, q = some p → p.Uses OK P) (ev : Event) (w w' : World σ τ) (x : Option Exn)
    (h : optHook I q ev w = .ok (w', x)) : Q w w' := by
  cases q with
  | none => cases h; exact F.refl _
  | some q => exact F.trans (F.note w ev) (keeps_run F hI _ q (hq q rfl) _ _ _ h)

theorem keeps_enter (hu : H.Hooks (·.Uses OK P)) (w w' : World σ τ) (x : Option Exn) (h : enter H I w = .ok (w', x)) : Q w w' := by
  unfold enter at h
  split at h
  · cases h
  · rename_i h1; cases h; exact keeps_opt F hI _ hu.enterGlobal _ _ _ _ h1
  · rename_i h1
    exact F.trans (keeps_opt F hI _ hu.enterGlobal _ _ _ _ h1) (keeps_opt F hI _ hu.enterSession _ _ _ _ h)

theorem keeps_exit (hu : H.Hooks (·.Uses OK P)) (w w' : World σ τ) (x : Option Exn) (h : exit H I w = .ok (w', x)) : Q w w' := by
  unfold exit at h
  split at h
  · cases h; exact F.refl _
  · rename_i q hq
    split at h
    · cases h
    · rename_i h1; cases h; exact F.trans (F.note w _) (keeps_run F hI _ q (hu.exitSession q hq) _ _ _ h1)
    · rename_i w1 h1
      have q1 := F.trans (F.note w _) (keeps_run F hI _ q (hu.exitSession q hq) _ _ _ h1)
      split at h
      · cases h
      · rename_i h2; cases h; exact F.trans q1 (keeps_opt F hI _ hu.exitGlobal _ _ _ _ h2)
      · rename_i w2 h2
        have q2 := F.trans q1 (keeps_opt F hI _ hu.exitGlobal _ _ _ _ h2)
        split at h
        · cases h
        · split at h
          · cases h; exact F.trans q2 (F.unsaved _ _)
          · cases h; exact F.trans q2 (F.trans (F.note _ _) (F.saved _ _))

theorem keeps_wrong (hu : H.Hooks (·.Uses OK P)) (line : Str) (w w' : World σ τ) (x : Option Exn) (h : wrongCommand H I line w = .ok (w', x)) : Q w w' := by
  unfold wrongCommand at h
  split at h
  · rename_i q hq; exact F.trans (F.note w _) (keeps_run F hI _ _ (hu.wrong q hq line) _ _ _ h)
  · cases h; exact F.trans (F.note w (.wrong line)) (F.io _ _)

theorem keeps_report (hu : H.Hooks (·.Uses OK P)) (line : Str) (e : Exn) (w w' : World σ τ) (x : Option Exn) (h : reportException H I line e w = .ok (w', x)) : Q w w' := by
  unfold reportException at h
  split at h
  · rename_i q hq; exact F.trans (F.note w _) (keeps_run F hI _ _ (hu.exception q hq line e) _ _ _ h)
  · cases h; exact F.trans (F.note w (.reported line e)) (F.io _ _)

theorem keeps_catch (hu : H.Hooks (·.Uses OK P)) (line : Str) (w : World σ τ) (o : Outcome) (w' : World σ τ) (x : Option Exn) (h : catchAll H I line (.ok (w, o)) = .ok (w', x)) : Q w w' := by
  unfold catchAll at h
  split at h
  · rename_i h1; cases h1
  · rename_i h1; cases h1; cases h; exact F.trans (F.note w (.unknown line)) (F.io _ _)
  · rename_i h1; cases h1; exact keeps_report F hI hu line _ _ _ _ h
  · rename_i h1; cases h1; cases h; exact F.refl _

end

section
variable {H : HApp σ τ} {OK : Act → Prop} {P : Id → Prop} {Q : World σ τ → World σ τ → Prop} (F : Frame OK P fun w w' : World σ τ => Q w w' ∧ Steady w w') {I : Inner σ τ}
  (hI : Keeps (fun w w' => Q w w' ∧ Steady w w') I) (hp : ∀ fn args, (H.prog fn args).Uses OK P) (hu : H.Hooks (·.Uses OK P))
include F hI hp hu

theorem keeps_user (line : Str) (toks : List Str) (w w' : World σ τ) (o : Outcome) (h : userPart H I line toks w = .ok (w', o)) : Q w w' ∧ Steady w w' := by
  have hcall : ∀ c vals w w' x, callProg H I c vals w = .ok (w', x) → (Q w w' ∧ Steady w w') ∧ Steady w w' := by
    intro c vals w w' x hc
    unfold callProg at hc
    split at hc
    · cases hc
    · rename_i he
      cases hc
      have := F.trans (keeps_run F hI _ _ (hp _ _) _ _ _ he) (F.note _ (.ran c vals w.snap x))
      exact ⟨this, this.2⟩
  unfold userPart at h
  cases hsc : Reentrant.scanCurrent H.rest.plat (callProg H I) toks w with
  | error f => rw [hsc] at h; cases h
  | ok v =>
    obtain ⟨w4, o4⟩ := v
    have h4 := Reentrant.closed_scanCurrent (Q := fun w w' => Q w w' ∧ Steady w w') hcall F.refl F.trans F.enter toks _ _ _ hsc
    rw [hsc] at h
    cases o4 with
    | found => cases h; exact h4
    | thrown e => cases h; exact h4
    | notFound =>
      simp only at h
      split at h
      · cases h
      · rename_i hw; cases h; exact F.trans h4 (keeps_wrong F hI hu line _ _ _ hw)
      · rename_i hw; cases h; exact F.trans h4 (keeps_wrong F hI hu line _ _ _ hw)

theorem keeps_body (line : Str) (toks : List Str) (ht : toks ≠ []) (w w' : World σ τ) (o : Outcome) (h : body H I line toks w = .ok (w', o)) : Q w w' ∧ Steady w w' := by
  have hglob : ∀ w2 o, scanGlobal H I toks w = .ok (w2, o) → Q w w2 ∧ Steady w w2 := by
    intro w2 o hs
    rcases scanGlobal_cases H I toks ht w with ⟨_, hg⟩ | ⟨_, hg, _⟩ | ⟨_, hg⟩ | ⟨_, hg⟩ | ⟨_, hg⟩ | ⟨arg, n, _, _, _, hg⟩ <;> rw [hg] at hs
    · cases hs; exact F.refl _
    · cases hs
    · unfold helpPart at hs
      split at hs
      · cases hs
      · rename_i he
        cases hs
        obtain ⟨i, rfl⟩ := Reentrant.help_io he
        exact F.trans (F.note _ (.builtin .help)) (F.io _ _)
    · unfold exitPart at hs
      split at hs
      · cases hs
      · rename_i he
        cases hs
        exact F.trans (F.note _ (.builtin .exit)) (keeps_exit F hI hu _ _ _ he)
    · cases hs
      exact F.trans (F.note _ (.builtin .history)) (F.io _ _)
    · unfold bangPart at hs
      split at hs
      · cases hs
      · rename_i h2 _
        have q1 : Q w { w.note (.builtin (.bang n)) with hist := h2 } ∧ Steady w { w.note (.builtin (.bang n)) with hist := h2 } :=
          F.trans (F.note _ (.builtin (.bang n))) (F.hist _ h2)
        split at hs
        · cases hs
        · cases hs; exact q1
        · split at hs
          · cases hs
          · rename_i he
            cases hs
            exact F.trans q1 (hI.feed _ _ _ _ he)
  unfold body at h
  cases hs : scanGlobal H I toks w with
  | error f => rw [hs] at h; cases h
  | ok v =>
    obtain ⟨w2, o2⟩ := v
    have h2 := hglob w2 o2 hs
    rw [hs] at h
    cases o2 with
    | notFound => exact F.trans h2 (keeps_user F hI hp hu line toks _ _ _ h)
    | found => cases h; exact h2
    | thrown e => cases h; exact h2

theorem keeps_feedWith (line : Str) (w w' : World σ τ) (x : Option Exn) (h : feedWith H I line w = .ok (w', x)) : Q w w' ∧ Steady w w' := by
  obtain ⟨toks, hl⟩ := line_exists line
  by_cases ht : toks = []
  · subst ht; rw [feedWith_blank H I hl] at h; cases h; exact F.refl _
  · rw [feedWith_eq H I hl ht] at h
    split at h
    · cases h
    · rename_i h1 hh
      cases hb : body H I line toks (w.entered h1) with
      | error f => rw [hb] at h; cases h
      | ok v =>
        rw [hb] at h
        exact F.trans (F.hist w h1) (F.trans (keeps_body F hI hp hu line toks ht _ _ _ hb) (keeps_catch F hI hu line _ _ _ _ h))

end

/-- What is preserved by all that a line may do is preserved by `Feed` and `Exit`. -/
theorem keeps_inner {H : HApp σ τ} {OK : Act → Prop} {P : Id → Prop} {Q : World σ τ → World σ τ → Prop} (F : Frame OK P Q)
    (hp : ∀ fn args, (H.prog fn args).Uses OK P) (hu : H.Hooks (·.Uses OK P)) (fuel : Nat) : Keeps (fun w w' => Q w w' ∧ Steady w w') (inner H fuel) := by
  have F' := frame_steady F
  induction fuel with
  | zero =>
    refine ⟨fun line w w' x h => (by cases h), fun w w' x h => ?_⟩
    exact keeps_exit F' (I := ⟨fun _ _ => .error .stackOverflow, fun _ => .error .stackOverflow⟩) ⟨fun _ _ _ _ h => (by cases h), fun _ _ _ h => (by cases h)⟩ hu _ _ _ h
  | succ fuel ih => exact ⟨fun line w w' x h => keeps_feedWith F' ih hp hu line w w' x h, fun w w' x h => keeps_exit F' ih hu _ _ _ h⟩

/-! ### Which functions are safe -/

open Reentrant (Stays Firm removes stays_act act_fresh firm_same designated_cmd)

theorem frame_stays {K P : Id → Prop} : Frame (KeepsMenus K) P (Stays (σ := σ) (τ := τ) K P) := by
  have same : ∀ {w w' : World σ τ}, w'.tree = w.tree → w'.current = w.current → Stays K P w w' := by
    intro w w' h1 h2 h
    exact ⟨⟨by rw [h1]; exact h.all, by rw [h1]; exact h.have_, by rw [h1, h2]; exact h.current⟩, fun i _ hi => by rw [h1]; exact hi⟩
  exact
    { refl := fun w => same rfl rfl
      trans := by
        intro a b c h1 h2 h
        obtain ⟨f1, g1⟩ := h1 h
        obtain ⟨f2, g2⟩ := h2 f1
        exact ⟨f2, fun i hK hi => g2 i hK (g1 i hK hi)⟩
      set := fun w s => same rfl rfl
      act := stays_act
      note := fun w e => same rfl rfl
      io := fun w i => same rfl rfl
      hist := fun w h => same rfl rfl
      enter := fun w i hi h => ⟨⟨h.all, h.have_, hi⟩, fun i _ hi => hi⟩
      goto := fun w i hi h => ⟨⟨h.all, h.have_, h.have_ i hi⟩, fun i _ hi => hi⟩
      saved := fun w st => same rfl rfl
      unsaved := fun w st => same rfl rfl }

theorem Careful.keeps {K P : Id → Prop} {H : HApp σ τ} (hC : Careful K P H) : H.Hooks (·.Uses (KeepsMenus K) P) :=
  ⟨fun f hf l e => (hC.hooks.exception f hf l e).1, fun f hf l => (hC.hooks.wrong f hf l).1, fun q hq => (hC.hooks.enterGlobal q hq).1, fun q hq => (hC.hooks.exitGlobal q hq).1,
    fun q hq => (hC.hooks.enterSession q hq).1, fun q hq => (hC.hooks.exitSession q hq).1⟩

/-- The call has no other fault than those that cannot be avoided, and throws no `bad_cast`. -/
def Fine (r : Ret σ τ) : Prop := (∀ f, r = .error f → Unavoidable f) ∧ ∀ w' what, r ≠ .ok (w', some (.badCast what))

theorem fine_ok {w : World σ τ} {x : Option Exn} (h : ∀ what, x ≠ some (.badCast what)) : Fine (.ok (w, x)) :=
  ⟨fun f h => (by cases h), fun w' what hh => h what (by cases hh; rfl)⟩

theorem fine_error {f : Fault} (h : Unavoidable f) : Fine (σ := σ) (τ := τ) (.error f) := ⟨fun f' hh => (by cases hh; exact h), fun w' what hh => (by cases hh)⟩

/-- What is known of the methods. -/
structure Good (K P : Id → Prop) (I : Inner σ τ) : Prop where
  feed : ∀ line w, Firm K P w → Fine (I.feed line w)
  exit : ∀ w, Firm K P w → Fine (I.exit w)
  keeps : Keeps (Stays K P) I

section
variable {K P : Id → Prop} {I : Inner σ τ} (G : Good K P I)
include G

theorem method_fine (m : Method) (w : World σ τ) (hw : Firm K P w) : Fine (method I m w) ∧ (m.inert = true → ∀ w' x, method I m w = .ok (w', x) → w'.tree = w.tree) := by
  have hl : w.tree.locate w.current ≠ none := Tree.locate_some hw.current
  cases m with
  | feed line => exact ⟨G.feed _ _ hw, fun h => by cases h⟩
  | exit => exact ⟨G.exit _ hw, fun h => by cases h⟩
  | prompt =>
    simp only [method]
    cases hp : Verif.prompt w with
    | error f =>
      exfalso
      unfold Verif.prompt at hp
      split at hp
      · cases hp
      · split at hp
        · cases hp
        · rename_i hn
          cases hq : w.tree.locate w.current with
          | none => exact hl hq
          | some p =>
            obtain ⟨m, k, q, rfl, _⟩ := Tree.locate_self hq
            exact hn _ _ _ hq
    | ok w1 =>
      obtain ⟨i, rfl⟩ := Reentrant.prompt_io hp
      exact ⟨fine_ok (by simp), fun _ w' x h => by cases h; rfl⟩
  | help =>
    simp only [method]
    cases hp : helpCmd w with
    | error f =>
      exfalso
      unfold helpCmd at hp
      split at hp
      · rename_i hq; exact hl hq
      · cases hp
    | ok w1 =>
      obtain ⟨i, rfl⟩ := Reentrant.help_io hp
      exact ⟨fine_ok (by simp), fun _ w' x h => by cases h; rfl⟩
  | history =>
    simp only [method]
    split <;> exact ⟨fine_ok (by simp), fun _ w' x h => by cases h; rfl⟩
  | again n =>
    refine ⟨?_, fun h => by cases h⟩
    simp only [method]
    split
    · rename_i hh; exact fine_error (.inr (.inr (.inr (forget_fault hh))))
    · split
      · rename_i hh; exact fine_error (.inr (.inr (.inl (at_fault hh))))
      · exact fine_ok (by simp)
      · exact G.feed _ _ (firm_same (by rfl) (by rfl) hw)
  | goto i => exact ⟨fine_ok (by simp), fun _ w' x h => by cases h; rfl⟩

theorem prog_fine (c : Cmd) (q : Prog σ) :
    ∀ (fresh : Bool), q.Mild K c.id fresh → q.Uses (KeepsMenus K) P → ∀ w : World σ τ, Firm K P w → (fresh = true ∨ K c.id → c.id ∈ w.tree.ids) →
      Fine (run I (fun w => decide (c.id ∈ w.tree.ids)) q w) := by
  induction q with
  | ret x => intro fresh hm _ w _ _; exact fine_ok hm
  | get k ih => intro fresh hm hu w hw hc; exact ih _ fresh (hm _) (hu _) w hw hc
  | set s k ih => intro fresh hm hu w hw hc; exact ih fresh hm hu _ ⟨hw.all, hw.have_, hw.current⟩ hc
  | act a k ih =>
    intro fresh hm hu w hw hc
    obtain ⟨h1, h2⟩ := stays_act w a hu.1 hw
    refine ih _ hm hu.2 _ h1 ?_
    rintro (h | h)
    · rw [Bool.and_eq_true, Bool.not_eq_true'] at h
      exact act_fresh w a h.2 (hc (.inl h.1))
    · exact h2 _ h (hc (.inr h))
  | touch k ih =>
    intro fresh hm hu w hw hc
    simp only [run, decide_eq_true_eq, if_pos (hc hm.1)]
    exact ih fresh hm.2 hu w hw hc
  | call m k ih =>
    intro fresh hm hu w hw hc
    obtain ⟨⟨h1, h2⟩, h3⟩ := method_fine G m w hw
    simp only [run]
    cases hr : method I m w with
    | error f => exact fine_error (h1 f hr)
    | ok v =>
      obtain ⟨w1, x⟩ := v
      simp only
      obtain ⟨g1, g2⟩ := keeps_method frame_stays G.keeps m hu.1 _ _ _ hr hw
      refine ih x _ (hm x ?_) (hu.2 x) w1 g1 ?_
      · rintro what rfl; exact h2 _ _ hr
      · rintro (h | h)
        · rw [Bool.and_eq_true] at h
          rw [h3 h.2 _ _ hr]
          exact hc (.inl h.1)
        · exact g2 _ h (hc (.inr h))

theorem hook_fine (q : Prog σ) : NoCast q → q.Uses (KeepsMenus K) P → ∀ w : World σ τ, Firm K P w → Fine (hook I q w) := by
  induction q with
  | ret x => intro hm _ w _; exact fine_ok hm
  | get k ih => intro hm hu w hw; exact ih _ (hm _) (hu _) w hw
  | set s k ih => intro hm hu w hw; exact ih hm hu _ ⟨hw.all, hw.have_, hw.current⟩
  | act a k ih => intro hm hu w hw; exact ih hm hu.2 _ (stays_act w a hu.1 hw).1
  | touch k ih => intro hm hu w hw; simp only [hook, run, if_true]; exact ih hm hu w hw
  | call m k ih =>
    intro hm hu w hw
    obtain ⟨⟨h1, h2⟩, _⟩ := method_fine G m w hw
    simp only [hook, run]
    cases hr : method I m w with
    | error f => exact fine_error (h1 f hr)
    | ok v =>
      obtain ⟨w1, x⟩ := v
      simp only
      exact ih x (hm x (by rintro what rfl; exact h2 _ _ hr)) (hu.2 x) w1 (keeps_method frame_stays G.keeps m hu.1 _ _ _ hr hw).1

theorem opt_fine (q : Option (Prog σ)) (hq : ∀ p, q = some p → p.Uses (KeepsMenus K) P ∧ NoCast p) (ev : Event) (w : World σ τ) (hw : Firm K P w) : Fine (optHook I q ev w) := by
  cases q with
  | none => exact fine_ok (by simp)
  | some q => exact hook_fine G q (hq q rfl).2 (hq q rfl).1 _ (firm_same (by rfl) (by rfl) hw)

variable {H : HApp σ τ} (hC : Careful K P H)
include hC

theorem exit_fine (w : World σ τ) (hw : Firm K P w) : Fine (exit H I w) := by
  unfold exit
  split
  · exact fine_ok (by simp)
  · rename_i q hq
    have h0 : Firm K P (w.note .exitSession) := firm_same (by rfl) (by rfl) hw
    have h1 := hook_fine G q (hC.hooks.exitSession q hq).2 (hC.hooks.exitSession q hq).1 _ h0
    split
    · rename_i hh; exact fine_error (h1.1 _ hh)
    · rename_i hh; exact fine_ok fun what he => by cases he; exact h1.2 _ _ hh
    · rename_i w1 hh
      have hw1 := (keeps_run frame_stays G.keeps _ q (hC.hooks.exitSession q hq).1 _ _ _ hh h0).1
      have h2 := opt_fine G _ hC.hooks.exitGlobal .exitGlobal w1 hw1
      split
      · rename_i hh; exact fine_error (h2.1 _ hh)
      · rename_i hh; exact fine_ok fun what he => by cases he; exact h2.2 _ _ hh
      · split
        · rename_i hg; exact fine_error (.inr (.inr (.inl (getCommands_fault hg))))
        · split
          · rename_i he; exact fine_ok fun what hx => by cases hx; exact hC.store _ _ _ he
          · exact fine_ok (by simp)

theorem wrong_fine (line : Str) (w : World σ τ) (hw : Firm K P w) : Fine (wrongCommand H I line w) := by
  unfold wrongCommand
  split
  · rename_i q hq; exact hook_fine G _ (hC.hooks.wrong q hq line).2 (hC.hooks.wrong q hq line).1 _ (firm_same (by rfl) (by rfl) hw)
  · exact fine_ok (by simp)

theorem report_fine (line : Str) (e : Exn) (w : World σ τ) (hw : Firm K P w) : Fine (reportException H I line e w) := by
  unfold reportException
  split
  · rename_i q hq; exact hook_fine G _ (hC.hooks.exception q hq line e).2 (hC.hooks.exception q hq line e).1 _ (firm_same (by rfl) (by rfl) hw)
  · exact fine_ok (by simp)

theorem catch_fine (line : Str) (r : Res σ τ) (h : ∀ f, r = .error f → Unavoidable f) (hw : ∀ w o, r = .ok (w, o) → Firm K P w) : Fine (catchAll H I line r) := by
  unfold catchAll
  split
  · exact fine_error (h _ rfl)
  · exact fine_ok (by simp)
  · exact report_fine G hC line _ _ (hw _ _ rfl)
  · exact fine_ok (by simp)

theorem user_fine (line : Str) (toks : List Str) (ht : toks ≠ []) (w : World σ τ) (hw : Firm K P w) (f : Fault) (h : userPart H I line toks w = .error f) : Unavoidable f := by
  have hcl : w.tree.locate w.current ≠ none := Tree.locate_some hw.current
  cases hp : w.tree.locate w.current with
  | none => exact absurd hp hcl
  | some path =>
    have hrun : ∀ (c : Cmd) args, DesignatesCmd w.dis path toks c args → ∀ vals, Fine (run I (fun w => decide (c.id ∈ w.tree.ids)) (H.prog c.fn vals) w) := by
      intro c args hd vals
      exact prog_fine G c _ true (hC.mild c vals) (hC.uses _ _) _ hw fun _ => designated_cmd hp hd
    have hcall : ∀ c args, DesignatesCmd w.dis path toks c args → ∀ vals w' what, callProg H I c vals w ≠ .ok (w', some (.badCast what)) := by
      intro c args hd vals w' what hc
      unfold callProg at hc
      split at hc
      · cases hc
      · rename_i he
        simp only [Except.ok.injEq, Prod.mk.injEq] at hc
        rw [hc.2] at he
        exact (hrun c args hd vals).2 _ _ he
    unfold userPart at h
    rcases Reentrant.scanCurrent_cases H.rest.plat (callProg H I) toks ht w hp hcall with
      h2 | ⟨m, k, q, hd, h2⟩ | ⟨e, h2⟩ | ⟨c, args, vals, hd, ha, h2⟩ | ⟨f', hf', h2⟩ <;> rw [h2] at h
    · simp only at h
      split at h
      · rename_i hh; cases h; exact (wrong_fine G hC line w hw).1 _ hh
      · cases h
      · cases h
    · cases h
    · cases h
    · unfold callProg at h
      cases hr : run I (fun w => decide (c.id ∈ w.tree.ids)) (H.prog c.fn vals) w with
      | error f' => rw [hr] at h; cases h; exact (hrun c args hd vals).1 _ hr
      | ok v =>
        obtain ⟨w2, x⟩ := v
        rw [hr] at h
        cases x with
        | none => cases h
        | some e =>
          cases e with
          | badCast what => exact absurd hr ((hrun c args hd vals).2 _ _)
          | std s => cases h
          | other => cases h
    · cases h; exact .inr (.inl hf')

theorem body_fine (line : Str) (toks : List Str) (ht : toks ≠ []) (w : World σ τ) (hw : Firm K P w) (f : Fault) (h : body H I line toks w = .error f) : Unavoidable f := by
  have hcl : w.tree.locate w.current ≠ none := Tree.locate_some hw.current
  unfold body at h
  rcases scanGlobal_cases H I toks ht w with ⟨_, h2⟩ | ⟨_, h2, arg, _, c, hcm, hub⟩ | ⟨_, h2⟩ | ⟨_, h2⟩ | ⟨_, h2⟩ | ⟨arg, n, _, _, _, h2⟩ <;> rw [h2] at h
  · exact user_fine G hC line toks ht w hw f h
  · cases h
    refine .inr (.inl ⟨H.rest.plat, .unsigned .w32, [c], .ctype, ?_, rfl⟩)
    have h43 : c ≠ b%'+' := by
      rintro rfl
      simp [Platform.ctypeUB] at hub
    simp [FromString.fromString, FromString.unsignedFromString, FromString.unsignedDigits, FromString.digitsLoop, FromString.isdigit, hub, h43, Except.map, bind, Except.bind]
  · unfold helpPart at h
    cases hh : helpCmd (w.note (.builtin .help)) with
    | error f' =>
      exfalso
      unfold helpCmd at hh
      split at hh
      · rename_i hn; exact absurd hn hcl
      · cases hh
    | ok w2 => rw [hh] at h; cases h
  · have he := exit_fine G hC (w.note (.builtin .exit)) (firm_same (by rfl) (by rfl) hw)
    unfold exitPart at h
    cases hx : exit H I (w.note (.builtin .exit)) with
    | error f' => rw [hx] at h; cases h; exact he.1 _ hx
    | ok v =>
      obtain ⟨w2, x⟩ := v
      rw [hx] at h
      cases x with
      | none => cases h
      | some e =>
        cases e with
        | badCast what => exact absurd hx (he.2 _ _)
        | std s => cases h
        | other => cases h
  · cases h
  · unfold bangPart at h
    cases hf : History.forgetLatest w.hist with
    | error f' => rw [hf] at h; cases h; exact .inr (.inr (.inr (forget_fault hf)))
    | ok h2 =>
      rw [hf] at h
      simp only at h
      cases hat : History.at h2 n with
      | error f' => rw [hat] at h; cases h; exact .inr (.inr (.inl (at_fault hat)))
      | ok o =>
        rw [hat] at h
        cases o with
        | none => cases h
        | some cmd =>
          simp only at h
          have hfi := G.feed cmd { w.note (.builtin (.bang n)) with hist := h2 } (firm_same (by rfl) (by rfl) hw)
          cases hfd : I.feed cmd { w.note (.builtin (.bang n)) with hist := h2 } with
          | error f' => rw [hfd] at h; cases h; exact hfi.1 _ hfd
          | ok v =>
            obtain ⟨w2, x⟩ := v
            rw [hfd] at h
            cases x with
            | none => cases h
            | some e =>
              cases e with
              | badCast what => exact absurd hfd (hfi.2 _ _)
              | std s => cases h
              | other => cases h

end

theorem good_inner {K P : Id → Prop} {H : HApp σ τ} (hC : Careful K P H) (fuel : Nat) : Good K P (inner H fuel) := by
  have hk : ∀ fuel, Keeps (Stays K P) (inner H fuel) := by
    intro fuel
    have := keeps_inner frame_stays hC.uses hC.keeps fuel
    exact ⟨fun l w w' x h => (this.feed l w w' x h).1, fun w w' x h => (this.exit w w' x h).1⟩
  induction fuel with
  | zero =>
    refine ⟨fun line w _ => fine_error (.inl rfl), fun w hw => ?_, hk 0⟩
    exact exit_fine (I := ⟨fun _ _ => .error .stackOverflow, fun _ => .error .stackOverflow⟩)
      ⟨fun _ _ _ => fine_error (.inl rfl), fun _ _ => fine_error (.inl rfl), fun _ _ _ _ h => (by cases h), fun _ _ _ h => (by cases h)⟩ hC w hw
  | succ fuel ih =>
    refine ⟨fun line w hw => ?_, fun w hw => exit_fine ih hC w hw, hk _⟩
    show Fine (feedWith H (inner H fuel) line w)
    obtain ⟨toks, hl⟩ := line_exists line
    by_cases ht : toks = []
    · subst ht; rw [feedWith_blank _ _ hl]; exact fine_ok (by simp)
    · rw [feedWith_eq _ _ hl ht]
      split
      · rename_i hh; exact fine_error (.inr (.inr (.inr (newCommand_fault hh))))
      · rename_i h1 hh
        have hw1 : Firm K P (w.entered h1) := ⟨hw.all, hw.have_, hw.current⟩
        refine catch_fine ih hC line _ (fun f hf => body_fine ih hC line toks ht _ hw1 f hf) ?_
        intro w2 o ho
        have F := frame_steady (frame_stays (σ := σ) (τ := τ) (K := K) (P := P))
        exact ((keeps_body F (keeps_inner frame_stays hC.uses hC.keeps fuel) hC.uses hC.keeps line toks ht _ _ _ ho).1 hw1).1

end Verif.Hooks
