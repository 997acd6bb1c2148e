import Verif.Proofs.FeedInv

set_option linter.unusedSimpArgs false

/-!
# Relations between states that are preserved by everything a session does
-/

namespace Verif
open Spec
open FromString (Value)

variable {σ τ : Type}

/-- Events that are neither a call of a handler nor the saving of the history. -/
def isPlain : Event → Bool
  | .ran _ _ _ _ => false
  | .saved _ => false
  | _ => true

/-- The relation holds between the states before and after each of the things that feeding a line consists of. -/
structure Closed (A : App σ τ) (R : World σ τ → World σ τ → Prop) : Prop where
  refl : ∀ w, R w w
  trans : ∀ {a b c}, R a b → R b c → R a c
  handler : ∀ (c : Cmd) vals w, R w ((w.effect (A.handler c.fn w.app vals)).note (.ran c vals w.snap (A.handler c.fn w.app vals).exn))
  note : ∀ w e, isPlain e = true → R w (w.note e)
  put : ∀ w s, R w (w.put s)
  exception : ∀ f, A.onException = some f → ∀ w l e, R w (w.effect (f w.app l e))
  wrong : ∀ f, A.onWrong = some f → ∀ w l, R w (w.effect (f w.app l))
  exitSession : ∀ f, A.exitSession = some f → ∀ w, R w (w.effect (f w.app))
  exitGlobal : ∀ f, A.exitGlobal = some f → ∀ w, R w (w.effect (f w.app))
  enterSession : ∀ f, A.enterSession = some f → ∀ w, R w (w.effect (f w.app))
  enterGlobal : ∀ f, A.enterGlobal = some f → ∀ w, R w (w.effect (f w.app))
  enter : ∀ (w : World σ τ) i, i ∈ w.tree.menuIds → R w { w with current := i }
  saved : ∀ (w : World σ τ) cmds st, R w { w.note (.saved cmds) with storage := st, exit := true }
  unsaved : ∀ (w : World σ τ) st, R w { w with storage := st }

/-- The messages of the library. -/
def isMsg : Event → Bool
  | .wrong _ | .reported _ _ | .unknown _ => true
  | _ => false

/-- The same for the things that executing a user's command consists of. -/
structure Core (A : App σ τ) (R : World σ τ → World σ τ → Prop) : Prop where
  refl : ∀ w, R w w
  trans : ∀ {a b c}, R a b → R b c → R a c
  handler : ∀ (c : Cmd) vals w, R w ((w.effect (A.handler c.fn w.app vals)).note (.ran c vals w.snap (A.handler c.fn w.app vals).exn))
  unknown : ∀ w l, R w ((w.note (.unknown l)).put (bs!"Cli. Unknown exception caught handling command line \"" ++ l ++ bs!"\"\n"))
  report : ∀ l e w, e ≠ .other → R w (reportException A l e w).1
  wrong : ∀ l w, R w (wrongCommand A l w).1
  enter : ∀ (w : World σ τ) i, i ∈ w.tree.menuIds → R w { w with current := i }

/-- The same where the record of a call and its effect are separate steps. -/
structure Apart (A : App σ τ) (R : World σ τ → World σ τ → Prop) : Prop where
  refl : ∀ w, R w w
  trans : ∀ {a b c}, R a b → R b c → R a c
  handler : ∀ (c : Cmd) vals w, R w ((w.effect (A.handler c.fn w.app vals)).note (.ran c vals w.snap (A.handler c.fn w.app vals).exn))
  note : ∀ w e, isMsg e = true → R w (w.note e)
  put : ∀ w s, R w (w.put s)
  exception : ∀ f, A.onException = some f → ∀ w l e, R w (w.effect (f w.app l e))
  wrong : ∀ f, A.onWrong = some f → ∀ w l, R w (w.effect (f w.app l))
  enter : ∀ (w : World σ τ) i, i ∈ w.tree.menuIds → R w { w with current := i }

theorem Apart.core {A : App σ τ} {R : World σ τ → World σ τ → Prop} (C : Apart A R) : Core A R where
  refl := C.refl
  trans := C.trans
  handler := C.handler
  unknown := fun w l => C.trans (C.note w (.unknown l) rfl) (C.put _ _)
  report := by
    intro line e w _
    unfold reportException
    simp only
    split
    · rename_i f hf
      exact C.trans (C.note w (.reported line e) rfl) (C.exception f hf (w.note (.reported line e)) line e)
    · exact C.trans (C.note w (.reported line e) rfl) (C.put _ _)
  wrong := by
    intro line w
    unfold wrongCommand
    simp only
    split
    · rename_i f hf
      exact C.trans (C.note w (.wrong line) rfl) (C.wrong f hf (w.note (.wrong line)) line)
    · exact C.trans (C.note w (.wrong line) rfl) (C.put _ _)
  enter := C.enter

theorem Closed.core {A : App σ τ} {R : World σ τ → World σ τ → Prop} (C : Closed A R) : Core A R :=
  Apart.core ⟨C.refl, C.trans, C.handler, fun w e h => C.note w e (by cases e <;> first | rfl | cases h), C.put, C.exception, C.wrong, C.enter⟩

section
variable {A : App σ τ} {R : World σ τ → World σ τ → Prop} (C : Core A R)

/-- The number of changes does not decrease, and if it is the same the menus are the same. -/
def Steady (w w' : World σ τ) : Prop := w.gen ≤ w'.gen ∧ (w'.gen = w.gen → w'.tree = w.tree)

theorem steady_refl (w : World σ τ) : Steady w w := ⟨Nat.le_refl _, fun _ => rfl⟩
theorem steady_trans {a b c : World σ τ} (h1 : Steady a b) (h2 : Steady b c) : Steady a c :=
  ⟨Nat.le_trans h1.1 h2.1, fun h => (h2.2 (by have := h1.1; have := h2.1; omega)).trans (h1.2 (by have := h1.1; have := h2.1; omega))⟩

/-- All these menus, and those below, exist. -/
def Exist (w : World σ τ) (path : Path) : Prop := ∀ m k, (m, k) ∈ path → m.id ∈ w.tree.menuIds ∧ ∀ i ∈ k.menuIds, i ∈ w.tree.menuIds

include C

theorem closed_execCmd (c : Cmd) (toks : List Str) (w w' : World σ τ) (o : Outcome) (h : execCmd A c toks w = .ok (w', o)) :
    R w w' ∧ Steady w w' := by
  have hcall : ∀ vals, R w (callHandler A c vals w).1 ∧ Steady w (callHandler A c vals w).1 := by
    intro vals
    refine ⟨C.handler c vals w, ?_⟩
    obtain ⟨_, _, s3, s4⟩ := effect_same w (A.handler c.fn w.app vals)
    exact ⟨s3, s4⟩
  unfold execCmd at h
  split at h
  · cases h; exact ⟨C.refl w, steady_refl w⟩
  · split at h
    · split at h
      · cases h; exact ⟨C.refl w, steady_refl w⟩
      · split at h
        · cases h
        · split at h
          · split at h
            · cases h; exact ⟨C.refl w, steady_refl w⟩
            · cases h; exact ⟨C.refl w, steady_refl w⟩
            · cases h; exact ⟨C.refl w, steady_refl w⟩
            · cases h
            · rename_i vals _
              have := hcall vals
              split at h <;> (rename_i he; rw [he] at this; cases h; exact this)
          · cases h; exact ⟨C.refl w, steady_refl w⟩
    · split at h
      · cases h
      · split at h
        · rename_i args _
          have := hcall (args.map .str)
          split at h <;> (rename_i he; rw [he] at this; cases h; exact this)
        · cases h; exact ⟨C.refl w, steady_refl w⟩

theorem closed_goOn {w w' : World σ τ} {r : Res σ τ} {next : World σ τ → Res σ τ} {o : Outcome} (h : goOn w r next = .ok (w', o))
    (hr : ∀ w1 o1, r = .ok (w1, o1) → R w w1 ∧ Steady w w1)
    (hn : ∀ w1, w1.gen = w.gen → w1.tree = w.tree → next w1 = .ok (w', o) → R w1 w' ∧ Steady w1 w') : R w w' ∧ Steady w w' := by
  unfold goOn at h
  split at h
  · rename_i w1
    obtain ⟨h1, h2⟩ := hr w1 _ rfl
    split at h
    · rename_i hg
      obtain ⟨h3, h4⟩ := hn w1 hg (h2.2 hg) h
      exact ⟨C.trans h1 h3, steady_trans h2 h4⟩
    · cases h
  · exact hr _ _ h

theorem closed_scanEntries (toks : List Str) (sub : MenuInfo → Forest → World σ τ → Res σ τ) (t : Tree)
    (f : Forest) (hf : ∀ i ∈ f.menuIds, i ∈ t.menuIds)
    (hs : ∀ m k w w' o, m.id ∈ t.menuIds → (∀ i ∈ k.menuIds, i ∈ t.menuIds) → w.tree = t → sub m k w = .ok (w', o) → R w w' ∧ Steady w w') :
    ∀ w w' o, w.tree = t → scanEntries A toks sub f w = .ok (w', o) → R w w' ∧ Steady w w' := by
  induction f with
  | nil => intro w w' o _ h; cases h; exact ⟨C.refl w, steady_refl w⟩
  | cmd c rest ih =>
    intro w w' o ht h
    simp only [scanEntries] at h
    refine closed_goOn C h (fun w1 o1 h1 => closed_execCmd C c toks w w1 o1 h1) ?_
    intro w1 _ ht1 h1
    exact ih (by simpa [Forest.menuIds] using hf) w1 w' o (ht1.trans ht) h1
  | menu m k rest _ ih =>
    intro w w' o ht h
    simp only [scanEntries] at h
    simp only [Forest.menuIds, List.mem_cons, List.mem_append] at hf
    refine closed_goOn C h (fun w1 o1 h1 => hs m k w w1 o1 (hf _ (.inl rfl)) (fun i hi => hf i (.inr (.inl hi))) ht h1) ?_
    intro w1 _ ht1 h1
    exact ih (fun i hi => hf i (.inr (.inr hi))) w1 w' o (ht1.trans ht) h1

theorem closed_handle (toks : List Str) : ∀ (via : Bool) (path : Path) (w w' : World σ τ) (o : Outcome), Exist w path →
    handleCommand A toks via path w = .ok (w', o) → R w w' ∧ Steady w w' := by
  induction toks with
  | nil =>
    intro via path w w' o _ h
    cases path with
    | nil => cases h; exact ⟨C.refl w, steady_refl w⟩
    | cons mk anc =>
      obtain ⟨m, k⟩ := mk
      simp only [handleCommand] at h
      split at h
      · cases h; exact ⟨C.refl w, steady_refl w⟩
      · cases h
  | cons t rest ih =>
    intro via path w w' o hex h
    cases path with
    | nil => simp only [handleCommand] at h; cases h; exact ⟨C.refl w, steady_refl w⟩
    | cons mk anc =>
      obtain ⟨m, k⟩ := mk
      simp only [handleCommand] at h
      split at h
      · cases h; exact ⟨C.refl w, steady_refl w⟩
      · split at h
        · split at h
          · cases h
            exact ⟨C.enter w _ (hex m k (by simp)).1, ⟨Nat.le_refl _, fun _ => rfl⟩⟩
          · refine closed_goOn C h ?_ ?_
            · intro w1 o1 h1
              refine closed_scanEntries C rest _ w.tree k (hex m k (by simp)).2 ?_ w w1 o1 rfl h1
              intro m' k' w2 w3 o2 hm' hk' ht h2
              refine ih false _ w2 w3 o2 ?_ h2
              intro m2 k2 hmem
              rw [ht]
              rcases List.mem_cons.1 hmem with he | hmem
              · cases he; exact ⟨hm', hk'⟩
              · exact hex m2 k2 hmem
            · intro w1 _ ht1 h1
              refine ih true anc w1 w' o ?_ h1
              intro m2 k2 hmem
              rw [ht1]
              exact hex m2 k2 (List.mem_cons_of_mem _ hmem)
        · cases h; exact ⟨C.refl w, steady_refl w⟩

theorem closed_scanCmds (toks : List Str) (path : Path) (w w' : World σ τ) (o : Outcome) (hex : Exist w path)
    (h : scanCmds A toks path w = .ok (w', o)) : R w w' ∧ Steady w w' := by
  cases path with
  | nil => cases h; exact ⟨C.refl w, steady_refl w⟩
  | cons mk anc =>
    obtain ⟨m, k⟩ := mk
    simp only [scanCmds] at h
    split at h
    · cases h; exact ⟨C.refl w, steady_refl w⟩
    · refine closed_goOn C h ?_ ?_
      · intro w1 o1 h1
        refine closed_scanEntries C toks _ w.tree k (hex m k (by simp)).2 ?_ w w1 o1 rfl h1
        intro m' k' w2 w3 o2 hm' hk' ht h2
        refine closed_handle C toks false _ w2 w3 o2 ?_ h2
        intro m2 k2 hmem
        rw [ht]
        rcases List.mem_cons.1 hmem with he | hmem
        · cases he; exact ⟨hm', hk'⟩
        · exact hex m2 k2 hmem
      · intro w1 _ ht1 h1
        split at h1
        · cases h1
        · refine closed_handle C toks true anc w1 w' o ?_ h1
          intro m2 k2 hmem
          rw [ht1]
          exact hex m2 k2 (List.mem_cons_of_mem _ hmem)

omit C in
theorem locate_exist_forest (id : Id) (S : List Id) : ∀ (f : Forest) (anc p : Path), (∀ i ∈ f.menuIds, i ∈ S) →
    (∀ m k, (m, k) ∈ anc → m.id ∈ S ∧ ∀ i ∈ k.menuIds, i ∈ S) → f.locate id anc = some p → ∀ m k, (m, k) ∈ p → m.id ∈ S ∧ ∀ i ∈ k.menuIds, i ∈ S := by
  intro f
  induction f with
  | nil => intro anc p _ _ h; cases h
  | cmd c rest ih => intro anc p hf ha h; exact ih anc p (by simpa [Forest.menuIds] using hf) ha h
  | menu m k rest ih1 ih2 =>
    intro anc p hf ha h
    simp only [Forest.menuIds, List.mem_cons, List.mem_append] at hf
    have ha' : ∀ m2 k2, (m2, k2) ∈ (m, k) :: anc → m2.id ∈ S ∧ ∀ i ∈ k2.menuIds, i ∈ S := by
      intro m2 k2 hm
      rcases List.mem_cons.1 hm with he | hm
      · cases he; exact ⟨hf _ (.inl rfl), fun i hi => hf i (.inr (.inl hi))⟩
      · exact ha m2 k2 hm
    simp only [Forest.locate] at h
    split at h
    · cases h; exact ha'
    · split at h
      · rename_i p' hp
        cases h
        exact ih1 _ _ (fun i hi => hf i (.inr (.inl hi))) ha' hp
      · exact ih2 _ _ (fun i hi => hf i (.inr (.inr hi))) ha h

omit C in
theorem locate_exist {w : World σ τ} {id : Id} {path : Path} (h : w.tree.locate id = some path) : Exist w path := by
  have hroot : ∀ m k, (m, k) ∈ [(w.tree.root, w.tree.kids)] → m.id ∈ w.tree.menuIds ∧ ∀ i ∈ k.menuIds, i ∈ w.tree.menuIds := by
    intro m k hm
    cases List.mem_singleton.1 hm
    exact ⟨by simp [Tree.menuIds], fun i hi => by simp [Tree.menuIds, hi]⟩
  unfold Tree.locate at h
  split at h
  · cases h; exact hroot
  · exact locate_exist_forest id _ _ _ _ (fun i hi => by simp [Tree.menuIds, hi]) hroot h

theorem closed_scanCurrent (toks : List Str) (w w' : World σ τ) (o : Outcome) (h : scanCurrent A toks w = .ok (w', o)) : R w w' := by
  unfold scanCurrent at h
  split at h
  · cases h
  · rename_i path hp
    exact (closed_scanCmds C toks path w w' o (locate_exist hp) h).1

theorem closed_report (line : Str) (e : Exn) (he : e ≠ .other) (w : World σ τ) : R w (reportException A line e w).1 := C.report line e w he

theorem closed_wrong (line : Str) (w : World σ τ) : R w (wrongCommand A line w).1 := C.wrong line w

theorem closed_catchAll (line : Str) (w w' : World σ τ) (o : Outcome) (x : Option Exn) (h : catchAll A line (.ok (w, o)) = .ok (w', x)) : R w w' := by
  unfold catchAll at h
  split at h
  · cases h
  · rename_i he; cases he; cases h
    exact C.unknown w line
  · rename_i hne he; cases he
    simp only [Except.ok.injEq] at h
    rw [show w' = (reportException A line _ w).1 from by rw [h]]
    exact closed_report C line _ (fun e => hne e) w
  · rename_i he; cases he; cases h; exact C.refl _

theorem closed_userPart (line : Str) (toks : List Str) (w w' : World σ τ) (o : Outcome) (h : userPart A line toks w = .ok (w', o)) : R w w' := by
  unfold userPart at h
  split at h
  · rename_i w1 h1
    have q := closed_wrong C line w1
    split at h <;> (rename_i he; rw [he] at q; cases h; exact C.trans (closed_scanCurrent C toks _ _ _ h1) q)
  · exact closed_scanCurrent C toks _ _ _ h

end

section
variable {A : App σ τ} {R : World σ τ → World σ τ → Prop} (C : Closed A R)
include C

theorem closed_exit (w w' : World σ τ) (x : Option Exn) (h : exitSession A w = .ok (w', x)) : R w w' := by
  rw [exitSession_eq] at h
  split at h
  · cases h; exact C.refl _
  · rename_i f hf
    have q1 : R w (optAction (some f) .exitSession w).1 := C.trans (C.note w .exitSession rfl) (C.exitSession f hf (w.note .exitSession))
    split at h
    · rename_i he; rw [he] at q1; cases h; exact q1
    · rename_i w1 he
      rw [he] at q1
      have q2 : R w1 (optAction A.exitGlobal .exitGlobal w1).1 := by
        cases hg : A.exitGlobal with
        | none => exact C.refl _
        | some g => exact C.trans (C.note w1 .exitGlobal rfl) (C.exitGlobal g hg (w1.note .exitGlobal))
      split at h
      · rename_i hg; rw [hg] at q2; cases h; exact C.trans q1 q2
      · rename_i w2 hg
        rw [hg] at q2
        split at h
        · cases h
        · rename_i cmds _
          split at h
          · cases h; exact C.trans (C.trans q1 q2) (C.unsaved w2 _)
          · cases h; exact C.trans (C.trans q1 q2) (C.saved w2 cmds _)

theorem closed_enter (w : World σ τ) : R w (Verif.enterSession A w).1 := by
  unfold Verif.enterSession
  have q1 : R w (optAction A.enterGlobal .enterGlobal w).1 := by
    cases hg : A.enterGlobal with
    | none => exact C.refl _
    | some g => exact C.trans (C.note w .enterGlobal rfl) (C.enterGlobal g hg (w.note .enterGlobal))
  split
  · rename_i he; rw [he] at q1; exact q1
  · rename_i w1 he
    rw [he] at q1
    refine C.trans q1 ?_
    cases hg : A.enterSession with
    | none => exact C.refl _
    | some g => exact C.trans (C.note w1 .enterSession rfl) (C.enterSession g hg (w1.note .enterSession))

/-- Everything that feeding a line does preserves the relation. -/
theorem closed_feed (H : ∀ (w : World σ τ) h, R w { w with hist := h }) (fuel : Nat) : ∀ (line : Str) (w w' : World σ τ) (x : Option Exn), feed A fuel line w = .ok (w', x) → R w w' := by
  induction fuel with
  | zero => intro line w w' x h; cases h
  | succ fuel ih =>
    intro line w w' x h
    obtain ⟨toks, hl⟩ := line_exists line
    by_cases ht : toks = []
    · subst ht; rw [feed_blank A hl] at h; cases h; exact C.refl _
    · rw [feed_eq A hl ht] at h
      split at h
      · cases h
      · rename_i h1 hh
        have q0 : R w (w.entered h1) := H w h1
        have hglob : ∀ w2 o, scanGlobal A (feed A fuel) toks (w.entered h1) = .ok (w2, o) → R w w2 := by
          intro w2 o hs
          rcases scanGlobal_cases A (feed A fuel) toks ht (w.entered h1) with ⟨_, hg⟩ | ⟨_, hg, _⟩ | ⟨_, hg⟩ | ⟨_, hg⟩ | ⟨_, hg⟩ | ⟨arg, n, _, _, _, hg⟩ <;> rw [hg] at hs
          · cases hs; exact q0
          · cases hs
          · unfold helpPart helpCmd at hs
            split at hs
            · cases hs
            · rename_i he
              split at he
              · cases he
              · cases he; cases hs
                exact C.trans q0 (C.trans (C.note _ (.builtin .help) rfl) (C.put _ _))
          · unfold exitPart at hs
            split at hs
            · cases hs
            · rename_i he
              cases hs
              exact C.trans q0 (C.trans (C.note _ (.builtin .exit) rfl) (closed_exit C _ _ _ he))
          · cases hs
            exact C.trans q0 (C.trans (C.note _ (.builtin .history) rfl) (C.put _ _))
          · unfold bangPart at hs
            split at hs
            · cases hs
            · rename_i h2 _
              have q1 : R w { (w.entered h1).note (.builtin (.bang n)) with hist := h2 } :=
                C.trans q0 (C.trans (C.note _ (.builtin (.bang n)) rfl) (H _ h2))
              split at hs
              · cases hs
              · cases hs; exact q1
              · split at hs
                · cases hs
                · rename_i he
                  cases hs
                  exact C.trans q1 (ih _ _ _ _ he)
        unfold body at h
        cases hs : scanGlobal A (feed A fuel) toks (w.entered h1) with
        | error f => rw [hs] at h; cases h
        | ok v =>
          obtain ⟨w2, o⟩ := v
          have h2 := hglob w2 o hs
          rw [hs] at h
          by_cases ho : o = .notFound
          · subst ho
            simp only at h
            cases hu : userPart A line toks w2 with
            | error f => rw [hu] at h; cases h
            | ok v =>
              obtain ⟨w3, o3⟩ := v
              rw [hu] at h
              exact C.trans h2 (C.trans (closed_userPart C.core line toks _ _ _ hu) (closed_catchAll C.core line _ _ _ _ h))
          · replace h : catchAll A line (.ok (w2, o)) = .ok (w', x) := by
              cases o with
              | notFound => exact absurd rfl ho
              | found => exact h
              | thrown e => exact h
            exact C.trans h2 (closed_catchAll C.core line _ _ _ _ h)

omit C in
/-- The part of `body` after the built-in commands. -/
def fallback (A : App σ τ) (line : Str) (toks : List Str) (r : Res σ τ) : Res σ τ :=
  match r with
  | .ok (w, .notFound) => userPart A line toks w
  | r => r

/-- One level of `Feed`: everything but the changes of the history preserves the relation. -/
theorem feed_level (fuel : Nat) {line : Str} {toks : List Str} (hl : Lex.Line line toks) (ht : toks ≠ []) (w w' : World σ τ) (x : Option Exn)
    (h : feed A (fuel + 1) line w = .ok (w', x)) :
    ∃ h1, History.newCommand w.hist line = .ok h1 ∧
      (((∀ n, ¬ GlobalLine toks (.bang n)) ∧ R (w.entered h1) w') ∨
       ∃ n h2, GlobalLine toks (.bang n) ∧ History.forgetLatest h1 = .ok h2 ∧
        ((History.at h2 n = .ok none ∧ R { (w.entered h1).note (.builtin (.bang n)) with hist := h2 } w') ∨
          ∃ c w2 x2, History.at h2 n = .ok (some c) ∧ feed A fuel c { (w.entered h1).note (.builtin (.bang n)) with hist := h2 } = .ok (w2, x2) ∧ R w2 w')) := by
  rw [feed_eq A hl ht] at h
  split at h
  · cases h
  · rename_i h1 hh
    refine ⟨h1, hh, ?_⟩
    have rest : ∀ w2 o, catchAll A line (fallback A line toks (.ok (w2, o))) = .ok (w', x) → R w2 w' := by
      intro w2 o h
      by_cases ho : o = .notFound
      · subst ho
        simp only [fallback] at h
        cases hu : userPart A line toks w2 with
        | error f => rw [hu] at h; cases h
        | ok v =>
          obtain ⟨w3, o3⟩ := v
          rw [hu] at h
          exact C.trans (closed_userPart C.core line toks _ _ _ hu) (closed_catchAll C.core line _ _ _ _ h)
      · replace h : catchAll A line (.ok (w2, o)) = .ok (w', x) := by
          cases o with
          | notFound => exact absurd rfl ho
          | found => exact h
          | thrown e => exact h
        exact closed_catchAll C.core line _ _ _ _ h
    replace h : catchAll A line (fallback A line toks (scanGlobal A (feed A fuel) toks (w.entered h1))) = .ok (w', x) := h
    rcases scanGlobal_cases A (feed A fuel) toks ht (w.entered h1) with ⟨hn, hg⟩ | ⟨hn, hg, _⟩ | ⟨rfl, hg⟩ | ⟨rfl, hg⟩ | ⟨rfl, hg⟩ | ⟨arg, n, rfl, hs1, hs2, hg⟩ <;> rw [hg] at h
    · exact .inl ⟨fun n => hn _, rest _ _ h⟩
    · cases h
    · refine .inl ⟨(fun n hb => by cases hb), ?_⟩
      unfold helpPart at h
      cases he : helpCmd ((w.entered h1).note (.builtin .help)) with
      | error f => rw [he] at h; cases h
      | ok w2 =>
        rw [he] at h
        unfold helpCmd at he
        split at he
        · cases he
        · cases he
          exact C.trans (C.trans (C.note _ (.builtin .help) rfl) (C.put _ _)) (rest _ _ h)
    · refine .inl ⟨(fun n hb => by cases hb), ?_⟩
      unfold exitPart at h
      cases he : exitSession A ((w.entered h1).note (.builtin .exit)) with
      | error f => rw [he] at h; cases h
      | ok v =>
        obtain ⟨w2, x2⟩ := v
        rw [he] at h
        exact C.trans (C.trans (C.note _ (.builtin .exit) rfl) (closed_exit C _ _ _ he)) (rest _ _ h)
    · refine .inl ⟨(fun n hb => by cases hb), ?_⟩
      unfold historyPart at h
      exact C.trans (C.trans (C.note _ (.builtin .history) rfl) (C.put _ _)) (rest _ _ h)
    · refine .inr ⟨n, ?_⟩
      unfold bangPart at h
      cases hf : History.forgetLatest (w.entered h1).hist with
      | error f => rw [hf] at h; cases h
      | ok h2 =>
        rw [hf] at h
        refine ⟨h2, .bang hs1 hs2, hf, ?_⟩
        simp only at h
        cases ha : History.at h2 n with
        | error f => rw [ha] at h; cases h
        | ok r =>
          rw [ha] at h
          cases r with
          | none => exact .inl ⟨rfl, rest _ _ h⟩
          | some c =>
            simp only at h
            cases hfd : feed A fuel c { (w.entered h1).note (.builtin (.bang n)) with hist := h2 } with
            | error f => rw [hfd] at h; cases h
            | ok v =>
              obtain ⟨w2, x2⟩ := v
              rw [hfd] at h
              exact .inr ⟨c, w2, x2, rfl, hfd, rest _ _ h⟩

end
end Verif
