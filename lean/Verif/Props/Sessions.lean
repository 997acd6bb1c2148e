import Verif.Model.Sessions
import Verif.Proofs.Alike
import Verif.Props.Menus

set_option linter.unusedSimpArgs false

/-!
# Properties C62 and C71: several sessions of one `Cli`
-/

namespace Verif.Props
open Spec Sessions

variable {σ τ : Type}

theorem prompt_io {w w' : World σ τ} (h : prompt w = .ok w') : ∃ io, w' = { w with io := io } ∧ io.style.color = w.io.style.color := by
  unfold Verif.prompt at h
  split at h
  · cases h; exact ⟨w.io, rfl, rfl⟩
  · split at h
    · cases h
      refine ⟨_, rfl, ?_⟩
      unfold Io.beforePrompt Io.afterPrompt Io.sgr Io.force Io.put
      split <;> (repeat' split) <;> rfl
    · cases h

/-- What is preserved by everything a session does is preserved by the operations. -/
theorem work_closed {A : App σ τ} {OK : Act → Prop} {R : World σ τ → World σ τ → Prop} (C : Closed A R) (ha : ∀ w a, OK a → R w (w.act a))
    (hp : ∀ (w : World σ τ) io, io.style.color = w.io.style.color → R w { w with io := io }) (H : ∀ (w : World σ τ) h, R w { w with hist := h })
    {op : Op} (hop : ∀ i a, op = .act i a → OK a) {w w' : World σ τ} (h : work A op w = .ok w') : R w w' := by
  cases op with
  | create i n t => cases h; exact C.refl _
  | destroy i => cases h; exact C.refl _
  | feed i fuel line =>
    simp only [work] at h
    split at h
    · rename_i hf; cases h; exact closed_feed C H _ _ _ _ _ hf
    · cases h
  | prompt i =>
    obtain ⟨io, rfl, hc⟩ := prompt_io h
    exact hp _ _ hc
  | enter i => cases h; exact closed_enter C _
  | exit i =>
    simp only [work] at h
    split at h
    · rename_i hf; cases h; exact closed_exit C _ _ _ hf
    · cases h
  | up i s =>
    simp only [work] at h
    split at h
    · cases h; exact H _ _
    · cases h
  | down i =>
    simp only [work] at h
    split at h
    · cases h; exact H _ _
    · cases h
  | act i a => cases h; exact ha _ _ (hop i a rfl)

/-- An action that writes nothing to `Cli::cout()` but texts that satisfy `P`. -/
def Says (P : Str → Prop) (a : Act) : Prop := ∀ s, a = .cout s → P s

/-- What was written to `Cli::cout()` satisfies `P`. -/
def Casts (P : Str → Prop) (w w' : World σ τ) : Prop := ∃ l, w'.casts = w.casts ++ l ∧ ∀ s ∈ l, P s

theorem casts_same {P : Str → Prop} {w w' : World σ τ} (h : w'.casts = w.casts) : Casts P w w' := ⟨[], by simp [h], by simp⟩

theorem casts_trans {P : Str → Prop} {a b c : World σ τ} (h1 : Casts P a b) (h2 : Casts P b c) : Casts P a c := by
  obtain ⟨l1, e1, p1⟩ := h1
  obtain ⟨l2, e2, p2⟩ := h2
  refine ⟨l1 ++ l2, by rw [e2, e1, List.append_assoc], ?_⟩
  intro s hs
  rcases List.mem_append.1 hs with hs | hs
  · exact p1 s hs
  · exact p2 s hs

theorem casts_act {P : Str → Prop} (w : World σ τ) (a : Act) (ha : Says P a) : Casts P w (w.act a) := by
  cases a with
  | cout s => exact ⟨[s], rfl, fun x hx => by cases List.mem_singleton.1 hx; exact ha s rfl⟩
  | out s => exact casts_same rfl
  | color on => exact casts_same rfl
  | enable id => simp only [World.act]; split <;> exact casts_same rfl
  | disable id => simp only [World.act]; split <;> exact casts_same rfl
  | remove id => simp only [World.act]; split <;> exact casts_same rfl
  | insert mid new => simp only [World.act]; split <;> exact casts_same rfl

/-- What holds for every action holds for calls of user code. -/
theorem rel_effect {OK : Act → Prop} {R : World σ τ → World σ τ → Prop} (refl : ∀ w, R w w) (trans : ∀ {a b c}, R a b → R b c → R a c)
    (happ : ∀ (w : World σ τ) s, R w { w with app := s }) (ha : ∀ w a, OK a → R w (w.act a)) (w : World σ τ) (e : Effect σ) (he : ∀ a ∈ e.acts, OK a) : R w (w.effect e) := by
  have key : ∀ (as : List Act) (u : World σ τ), (∀ a ∈ as, OK a) → R u (as.foldl World.act u) := by
    intro as
    induction as with
    | nil => intro u _; exact refl u
    | cons a as ih => intro u h; exact trans (ha u a (h a (by simp))) (ih _ (fun b hb => h b (by simp [hb])))
  exact trans (happ w e.app) (key e.acts _ he)

/-- A relation between states that concerns neither log, nor private output, nor history, nor the current menu, and is preserved by all actions of user code, is preserved by
    all that a session does. -/
theorem closed_acts {A : App σ τ} {OK : Act → Prop} (hA : A.Only OK) {R : World σ τ → World σ τ → Prop} (refl : ∀ w, R w w) (trans : ∀ {a b c}, R a b → R b c → R a c)
    (happ : ∀ (w : World σ τ) s, R w { w with app := s }) (ha : ∀ w a, OK a → R w (w.act a)) (note : ∀ w e, R w (w.note e)) (put : ∀ w s, R w (w.put s))
    (enter : ∀ (w : World σ τ) i, R w { w with current := i }) (saved : ∀ (w : World σ τ) st x, R w { w with storage := st, exit := x }) : Closed A R where
  refl := refl
  trans := trans
  handler := fun _ _ w => trans (rel_effect refl trans happ ha w _ (hA.handler _ _ _)) (note _ _)
  note := fun w e _ => note w e
  put := put
  exception := fun f hf w _ _ => rel_effect refl trans happ ha w _ (hA.exception f hf _ _ _)
  wrong := fun f hf w _ => rel_effect refl trans happ ha w _ (hA.wrong f hf _ _)
  exitSession := fun f hf w => rel_effect refl trans happ ha w _ (hA.exitSession f hf _)
  exitGlobal := fun f hf w => rel_effect refl trans happ ha w _ (hA.exitGlobal f hf _)
  enterSession := fun f hf w => rel_effect refl trans happ ha w _ (hA.enterSession f hf _)
  enterGlobal := fun f hf w => rel_effect refl trans happ ha w _ (hA.enterGlobal f hf _)
  enter := fun w i _ => enter w i
  saved := fun w cmds st => trans (note w (.saved cmds)) (saved _ st true)
  unsaved := fun w st => saved w st w.exit

theorem closed_casts {A : App σ τ} {P : Str → Prop} (hA : A.Only (Says P)) : Closed A (Casts P) :=
  closed_acts hA (fun _ => casts_same rfl) casts_trans (fun _ _ => casts_same rfl) casts_act (fun _ _ => casts_same rfl) (fun _ _ => casts_same rfl) (fun _ _ => casts_same rfl)
    (fun _ _ _ => casts_same rfl)

/-- A step of another session. -/
theorem other_step {A : Nat → App σ τ} {P : Str → Prop} (hA : ∀ i, (A i).Only (Says P)) {S S' : State σ τ} {op : Op} (hop : ∀ i a, op = .act i a → Says P a)
    (h : step A S op = .ok S') {j : Nat} (hj : op.who ≠ j) :
    S'.live j = S.live j ∧ ∃ texts : List Str, (∀ s ∈ texts, P s) ∧ S'.own j = { S.own j with out := (S.own j).out ++ texts.flatten } := by
  have hj' : j ≠ op.who := fun e => hj e.symm
  have triv : ∃ texts : List Str, (∀ s ∈ texts, P s) ∧ S.own j = { S.own j with out := (S.own j).out ++ texts.flatten } := ⟨[], by simp, by simp⟩
  have gen : (if S.live op.who then
      match work (A op.who) op (S.view op.who) with
      | .ok w => Except.ok (S.after op.who w)
      | .error f => .error f
    else .ok S) = .ok S' → S'.live j = S.live j ∧ ∃ texts : List Str, (∀ s ∈ texts, P s) ∧ S'.own j = { S.own j with out := (S.own j).out ++ texts.flatten } := by
    intro h
    split at h
    · split at h
      · rename_i w hw
        cases h
        obtain ⟨l, e, p⟩ := work_closed (closed_casts (hA op.who)) casts_act (fun _ _ _ => casts_same rfl) (fun _ _ => casts_same rfl) hop hw
        refine ⟨rfl, l, p, ?_⟩
        have : w.casts = l := by rw [e]; rfl
        simp [State.after, hj', this]
      · cases h
    · cases h; exact ⟨rfl, triv⟩
  cases op with
  | create i n t =>
    simp only [Op.who] at hj hj'
    simp only [step] at h
    split at h
    · cases h; exact ⟨rfl, triv⟩
    · cases h
      refine ⟨by simp [hj'], [], by simp, by simp [hj']⟩
  | destroy i =>
    simp only [Op.who] at hj hj'
    simp only [step] at h
    cases h
    exact ⟨by simp [hj'], triv⟩
  | feed i fuel line => exact gen h
  | prompt i => exact gen h
  | enter i => exact gen h
  | exit i => exact gen h
  | up i s => exact gen h
  | down i => exact gen h
  | act i a => exact gen h

/-- **C62** Whatever any other sessions do (lines are fed to them, they enter and leave, are created and destroyed, …): the current menu, the history, the exit state and the record of what was executed in session `j` do not change,
    and its stream gets nothing but texts that user code has written to `Cli::cout()` (they satisfy every `P` that is satisfied by all texts that user code may write to `Cli::cout()`). -/
theorem C62_isolated (A : Nat → App σ τ) (P : Str → Prop) (hA : ∀ i, (A i).Only (Says P)) (j : Nat) (ops : List Op) (hop : ∀ i a, .act i a ∈ ops → Says P a) (hj : ∀ op ∈ ops, op.who ≠ j)
    (S S' : State σ τ) (h : run A S ops = .ok S') :
    (S'.own j).current = (S.own j).current ∧ (S'.own j).hist = (S.own j).hist ∧ (S'.own j).exit = (S.own j).exit ∧ (S'.own j).log = (S.own j).log ∧ S'.live j = S.live j ∧
    ∃ texts : List Str, (∀ s ∈ texts, P s) ∧ (S'.own j).out = (S.own j).out ++ texts.flatten := by
  induction ops generalizing S with
  | nil => cases h; exact ⟨rfl, rfl, rfl, rfl, rfl, [], by simp, by simp⟩
  | cons op ops ih =>
    simp only [run] at h
    split at h
    · rename_i S1 h1
      obtain ⟨l, t, p, e⟩ := other_step hA (fun i a e => hop i a (by simp [e])) h1 (hj op (by simp))
      obtain ⟨a1, a2, a3, a4, a5, t2, p2, a6⟩ := ih (fun i a h => hop i a (by simp [h])) (fun o ho => hj o (by simp [ho])) S1 h
      rw [e] at a1 a2 a3 a4 a6
      refine ⟨a1, a2, a3, a4, a5.trans l, t ++ t2, ?_, ?_⟩
      · intro s hs
        rcases List.mem_append.1 hs with hs | hs
        · exact p s hs
        · exact p2 s hs
      · rw [a6, List.flatten_append, ← List.append_assoc]
    · cases h

/-- **C62** If user code does not write to `Cli::cout()`, the other sessions' streams get nothing at all. -/
theorem C62_output_private (A : Nat → App σ τ) (hA : ∀ i, (A i).Only (Says fun _ => False)) (j : Nat) (ops : List Op) (hop : ∀ i a, .act i a ∈ ops → Says (fun _ => False) a) (hj : ∀ op ∈ ops, op.who ≠ j)
    (S S' : State σ τ) (h : run A S ops = .ok S') : (S'.own j).out = (S.own j).out := by
  obtain ⟨_, _, _, _, _, t, p, e⟩ := C62_isolated A _ hA j ops hop hj S S' h
  cases t with
  | nil => simpa using e
  | cons a t => exact (p a (by simp)).elim

/-! ### Non-interference -/

/-- The action writes to the stream that was given to the user's code, and that is all. -/
def IsOut (a : Act) : Prop := ∃ s, a = .out s

/-- Menus, colour and `Cli::cout()` are left alone. -/
structure Modest (w w' : World σ τ) : Prop where
  tree : w'.tree = w.tree
  dis : w'.dis = w.dis
  used : w'.used = w.used
  gen : w'.gen = w.gen
  color : w'.io.style.color = w.io.style.color

theorem modest_refl (w : World σ τ) : Modest w w := ⟨rfl, rfl, rfl, rfl, rfl⟩

theorem modest_act (w : World σ τ) (a : Act) (ha : IsOut a) : Modest w (w.act a) := by
  obtain ⟨s, rfl⟩ := ha
  exact ⟨rfl, rfl, rfl, rfl, rfl⟩

theorem closed_modest {A : App σ τ} (hA : A.Only IsOut) : Closed A Modest :=
  closed_acts hA modest_refl
    (fun h1 h2 => ⟨h2.tree.trans h1.tree, h2.dis.trans h1.dis, h2.used.trans h1.used, h2.gen.trans h1.gen, h2.color.trans h1.color⟩)
    (fun _ _ => ⟨rfl, rfl, rfl, rfl, rfl⟩) modest_act (fun _ _ => ⟨rfl, rfl, rfl, rfl, rfl⟩) (fun _ _ => ⟨rfl, rfl, rfl, rfl, rfl⟩) (fun _ _ => ⟨rfl, rfl, rfl, rfl, rfl⟩)
    (fun _ _ _ => ⟨rfl, rfl, rfl, rfl, rfl⟩)

/-- Two states of the system that are the same to session `j`, except for the state of the application and the storage. -/
structure SameTo (j : Nat) (S T : State σ τ) : Prop where
  own : T.own j = S.own j
  live : T.live j = S.live j
  tree : T.sh.tree = S.sh.tree
  dis : T.sh.dis = S.sh.dis
  used : T.sh.used = S.sh.used
  gen : T.sh.gen = S.sh.gen
  color : T.sh.color = S.sh.color

theorem SameTo.like {j : Nat} {S T : State σ τ} (h : SameTo j S T) : Like (fun _ _ => True) (S.view j) (T.view j) := by
  refine ⟨T.sh.app, T.sh.storage, trivial, ?_⟩
  simp only [State.view, h.own, h.tree, h.dis, h.used, h.gen, h.color]

theorem says_isOut {a : Act} (h : IsOut a) : Says (fun _ => False) a := by
  obtain ⟨s, rfl⟩ := h
  intro t ht; cases ht

theorem only_mono {A : App σ τ} {P Q : Act → Prop} (h : ∀ a, P a → Q a) (hA : A.Only P) : A.Only Q :=
  ⟨fun f s v a ha => h a (hA.handler f s v a ha), fun f hf s l e a ha => h a (hA.exception f hf s l e a ha), fun f hf s l a ha => h a (hA.wrong f hf s l a ha),
    fun f hf s a ha => h a (hA.exitSession f hf s a ha), fun f hf s a ha => h a (hA.exitGlobal f hf s a ha), fun f hf s a ha => h a (hA.enterSession f hf s a ha),
    fun f hf s a ha => h a (hA.enterGlobal f hf s a ha)⟩

/-- A step of another session leaves the state the same to session `j`. -/
theorem same_other {A : Nat → App σ τ} (hA : ∀ i, (A i).Only IsOut) {S S' : State σ τ} {op : Op} (hop : ∀ i a, op = .act i a → IsOut a) (h : step A S op = .ok S') {j : Nat} (hj : op.who ≠ j) :
    SameTo j S S' := by
  obtain ⟨h1, t, p, e⟩ := other_step (P := fun _ => False) (fun i => only_mono (fun a => says_isOut) (hA i)) (fun i a e => says_isOut (hop i a e)) h hj
  have ht : t = [] := by
    cases t with
    | nil => rfl
    | cons a t => exact (p a (by simp)).elim
  subst ht
  have e' : S'.own j = S.own j := by rw [e]; simp
  have gen : (if S.live op.who then
      match work (A op.who) op (S.view op.who) with
      | .ok w => Except.ok (S.after op.who w)
      | .error f => .error f
    else .ok S) = .ok S' → SameTo j S S' := by
    intro h
    split at h
    · split at h
      · rename_i w hw
        cases h
        have m := work_closed (closed_modest (hA op.who)) modest_act (fun _ _ hc => ⟨rfl, rfl, rfl, rfl, hc⟩) (fun _ _ => ⟨rfl, rfl, rfl, rfl, rfl⟩) hop hw
        exact ⟨e', h1, m.tree, m.dis, m.used, m.gen, m.color⟩
      · cases h
    · cases h; exact ⟨rfl, rfl, rfl, rfl, rfl, rfl, rfl⟩
  cases op with
  | create i n t =>
    simp only [step] at h
    split at h
    · cases h; exact ⟨rfl, rfl, rfl, rfl, rfl, rfl, rfl⟩
    · cases h; exact ⟨e', h1, rfl, rfl, rfl, rfl, rfl⟩
  | destroy i =>
    simp only [step] at h
    cases h; exact ⟨e', h1, rfl, rfl, rfl, rfl, rfl⟩
  | feed i fuel line => exact gen h
  | prompt i => exact gen h
  | enter i => exact gen h
  | exit i => exact gen h
  | up i s => exact gen h
  | down i => exact gen h
  | act i a => exact gen h

/-- A step of session `j` itself in two states that are the same to it. -/
theorem same_self {A : Nat → App σ τ} {j : Nat} (hB : (A j).Blind) {S S' T : State σ τ} {op : Op} (hj : op.who = j) (hc : ∀ n t, op ≠ .create j n t)
    (h : step A S op = .ok S') (hST : SameTo j S T) : ∃ T', step A T op = .ok T' ∧ SameTo j S' T' := by
  have gen : (if S.live op.who then
      match work (A op.who) op (S.view op.who) with
      | .ok w => Except.ok (S.after op.who w)
      | .error f => .error f
    else .ok S) = .ok S' → ∃ T', (if T.live op.who then
      match work (A op.who) op (T.view op.who) with
      | .ok w => Except.ok (T.after op.who w)
      | .error f => .error f
    else .ok T) = .ok T' ∧ SameTo j S' T' := by
    intro h
    rw [hj] at h ⊢
    rw [hST.live]
    split at h
    · rename_i hl
      rw [if_pos hl]
      rcases like_work hB.to op hST.like with ⟨f, e1, e2⟩ | ⟨w, v, e1, e2, l⟩
      · rw [e1] at h; cases h
      · rw [e1] at h; cases h
        rw [e2]
        refine ⟨_, rfl, ?_⟩
        obtain ⟨s, t, _, rfl⟩ := l
        exact ⟨by simp [State.after, owned], hST.live, rfl, rfl, rfl, rfl, rfl⟩
    · rename_i hl
      rw [if_neg hl]
      cases h
      exact ⟨T, rfl, hST⟩
  cases op with
  | create i n t => simp only [Op.who] at hj; subst hj; exact absurd rfl (hc n t)
  | destroy i =>
    simp only [step] at h ⊢
    cases h
    simp only [Op.who] at hj
    subst hj
    exact ⟨_, rfl, hST.own, by simp, hST.tree, hST.dis, hST.used, hST.gen, hST.color⟩
  | feed i fuel line => exact gen h
  | prompt i => exact gen h
  | enter i => exact gen h
  | exit i => exact gen h
  | up i s => exact gen h
  | down i => exact gen h
  | act i a => exact gen h

theorem same_trans {j : Nat} {S T U : State σ τ} (h1 : SameTo j S T) (h2 : SameTo j T U) : SameTo j S U :=
  ⟨h2.own.trans h1.own, h2.live.trans h1.live, h2.tree.trans h1.tree, h2.dis.trans h1.dis, h2.used.trans h1.used, h2.gen.trans h1.gen, h2.color.trans h1.color⟩

theorem same_symm {j : Nat} {S T : State σ τ} (h : SameTo j S T) : SameTo j T S :=
  ⟨h.own.symm, h.live.symm, h.tree.symm, h.dis.symm, h.used.symm, h.gen.symm, h.color.symm⟩

/-- **C62** Interleavings do not matter: if the user's code does no more than write to the stream it is given and change the application's state, and what it writes and throws does not depend on
    this state, then in every interleaving of operations on any sessions the output, the current menu, the history, the exit state and the commands executed of session `j` are those that result from
    the operations on session `j` alone. (`j` exists from the beginning: what history a session has when it is created depends on the sessions that ended before.) -/
theorem C62_noninterference (A : Nat → App σ τ) (hA : ∀ i, (A i).Only IsOut) (hB : ∀ i, (A i).Blind) (j : Nat) (ops : List Op) (hop : ∀ i a, .act i a ∈ ops → IsOut a)
    (hc : ∀ n t, .create j n t ∉ ops) (S S' : State σ τ) (h : run A S ops = .ok S') :
    ∃ T, run A S (ops.filter (fun op => op.who == j)) = .ok T ∧ T.own j = S'.own j ∧ T.live j = S'.live j := by
  have key : ∀ (ops : List Op), (∀ i a, .act i a ∈ ops → IsOut a) → (∀ n t, .create j n t ∉ ops) → ∀ (S T S' : State σ τ), SameTo j S T → run A S ops = .ok S' →
      ∃ T', run A T (ops.filter (fun op => op.who == j)) = .ok T' ∧ SameTo j S' T' := by
    intro ops
    induction ops with
    | nil => intro _ _ S T S' hST h; cases h; exact ⟨T, rfl, hST⟩
    | cons op ops ih =>
      intro hop hc S T S' hST h
      simp only [run] at h
      split at h
      · rename_i S1 h1
        have ih := ih (fun i a h => hop i a (by simp [h])) (fun n t h => hc n t (by simp [h]))
        by_cases hj : op.who = j
        · obtain ⟨T1, t1, hs⟩ := same_self (hB j) hj (fun n t e => hc n t (by simp [e])) h1 hST
          obtain ⟨T', t2, hs'⟩ := ih S1 T1 S' hs h
          refine ⟨T', ?_, hs'⟩
          rw [List.filter_cons, if_pos (by simp [hj])]
          simp only [run, t1]
          exact t2
        · have hs := same_other hA (fun i a e => hop i a (by simp [e])) h1 hj
          obtain ⟨T', t2, hs'⟩ := ih S1 T S' (same_trans (same_symm hs) hST) h
          refine ⟨T', ?_, hs'⟩
          rw [List.filter_cons, if_neg (by simp [hj])]
          exact t2
      · cases h
  obtain ⟨T, h1, h2⟩ := key ops hop hc S S S' ⟨rfl, rfl, rfl, rfl, rfl, rfl, rfl⟩ h
  exact ⟨T, h1, h2.own, h2.live⟩

/-- The sample application with handlers that do not look at the state and remove nothing; it counts the calls. -/
def echo : App (List Nat) (List Str) :=
  { Sample.app with handler := fun fn s _ => ⟨fn :: s, [.out bs!"ok\n"], none⟩ }

/-- Sessions 0 and 1 of the sample `Cli`, in the root menu. -/
def two : State (List Nat) (List Str) :=
  ⟨shared Sample.world, fun i => i < 2, fun _ => owned Sample.world⟩

example : echo.Only IsOut ∧ echo.Blind := by
  refine ⟨⟨?_, ?_, ?_, ?_, ?_, ?_, ?_⟩, ⟨?_, ?_, ?_, ?_, ?_, ?_, ?_, fun _ _ _ => rfl⟩⟩
  · intro f s v a ha; cases List.mem_singleton.1 ha; exact ⟨_, rfl⟩
  · intro f h; cases h
  · intro f h; cases h
  · intro f h s a ha; cases h; cases ha
  · intro f h; cases h
  · intro f h; cases h
  · intro f h; cases h
  · intro f s s' v; exact ⟨rfl, rfl⟩
  · intro f h; cases h
  · intro f h; cases h
  · intro f h s s'; cases h; exact ⟨rfl, rfl⟩
  · intro f h; cases h
  · intro f h; cases h
  · intro f h; cases h

/-- Session 1 goes to the menu `sub`, meanwhile session 0 runs a command and exits; then session 1 runs one. -/
example : (match run (fun _ => echo) two [.feed 1 1 bs!"sub", .feed 0 1 bs!"any x", .exit 0, .prompt 0, .feed 1 1 bs!"go", .prompt 1] with
    | .ok S => some ((S.own 1).out, (S.own 1).current, (S.own 0).out, (S.own 0).exit, S.sh.app)
    | .error _ => none) = some (bs!"ok\nsub> ", 3, bs!"ok\n", true, [4, 5]) := by decide +kernel

/-- The operations on a single session, as in `Model/Session`. -/
def alone (A : App σ τ) : List Op → World σ τ → Except Fault (World σ τ)
  | [], w => .ok w
  | op :: ops, w => match work A op { w with casts := [] } with | .ok w => alone A ops w | .error f => .error f

/-- **C62** A session that is created while others exist, and then used, works as it does if it is the only one (`Model/Session`, to which all properties of single sessions refer). -/
theorem C62_alone (A : Nat → App σ τ) (i n : Nat) (tty : Bool) (S : State σ τ) (hl : S.live i = false) (ops : List Op) (hi : ∀ op ∈ ops, op.who = i)
    (hc : ∀ op ∈ ops, (∀ k m t, op ≠ .create k m t) ∧ ∀ k, op ≠ .destroy k) :
    match alone (A i) ops (newSession (A i) n (S.view i) ⟨⟨S.sh.color, tty, false⟩, []⟩) with
    | .ok w => ∃ S', run A S (.create i n tty :: ops) = .ok S' ∧ S'.live i = true ∧ S'.view i = { w with casts := [] }
    | .error f => run A S (.create i n tty :: ops) = .error f := by
  have key : ∀ (ops : List Op), (∀ op ∈ ops, op.who = i) → (∀ op ∈ ops, (∀ k m t, op ≠ .create k m t) ∧ ∀ k, op ≠ .destroy k) → ∀ (S : State σ τ) (v : World σ τ), S.live i = true → S.view i = { v with casts := [] } →
      match alone (A i) ops v with
      | .ok w => ∃ S', run A S ops = .ok S' ∧ S'.live i = true ∧ S'.view i = { w with casts := [] }
      | .error f => run A S ops = .error f := by
    intro ops
    induction ops with
    | nil => intro _ _ S v h1 h2; exact ⟨S, rfl, h1, h2⟩
    | cons op ops ih =>
      intro hi hc S v h1 h2
      have hs : step A S op = match work (A i) op (S.view i) with | .ok w => .ok (S.after i w) | .error f => .error f := by
        have hw := hi op (by simp)
        obtain ⟨c1, c2⟩ := hc op (by simp)
        cases op with
        | create k m t => exact absurd rfl (c1 k m t)
        | destroy k => exact absurd rfl (c2 k)
        | _ => simp only [step, hw, h1, if_true]; rfl
      simp only [alone, run, hs, h2]
      cases hk : work (A i) op { v with casts := [] } with
      | error f => rfl
      | ok w => exact ih (fun o h => hi o (by simp [h])) (fun o h => hc o (by simp [h])) (S.after i w) w (by simpa [State.after] using h1) (by simp [State.after, State.view, shared, owned])
  simp only [run, step, hl, Bool.false_eq_true, if_false]
  exact key ops hi hc _ _ (by simp) (by simp [State.view, newSession, owned])

/-- A second session is created beside a live one, and executes a command. -/
example : ∃ S, run (fun _ => Sample.app) { two with live := fun i => i < 1 } [.create 1 3 false, .feed 1 1 bs!"sub", .prompt 1] = .ok S ∧ S.live 1 = true ∧ (S.own 1).out = bs!"sub> " ∧ (S.own 1).current = 3 ∧ (S.own 0).current = 0 := ⟨_, rfl, rfl, rfl, rfl, rfl⟩

/-! ### C71 -/

/-- The menu exists, and all menus belong to `K`. -/
def Has (K : Id → Prop) (x : Id) (w : World σ τ) : Prop := x ∈ w.tree.menuIds ∧ ∀ i ∈ w.tree.menuIds, K i

theorem has_act {K : Id → Prop} {x : Id} (w : World σ τ) (a : Act) (ha : KeepsMenus K a) (h : Has K x w) : Has K x (w.act a) := by
  have := settled_act { w with current := x } a ha h
  have e : (({ w with current := x } : World σ τ).act a).tree = (w.act a).tree ∧ (({ w with current := x } : World σ τ).act a).current = x := by
    cases a <;> simp only [World.act] <;> (repeat' split) <;> first | exact ⟨rfl, rfl⟩ | exact ⟨trivial, rfl⟩ | exact ⟨rfl, trivial⟩ | trivial
  unfold Settled at this
  rw [e.1, e.2] at this
  exact this

theorem closed_has {A : App σ τ} {K : Id → Prop} (hA : A.Only (KeepsMenus K)) (x : Id) : Closed A (fun w w' => Has K x w → Has K x w') :=
  closed_acts hA (fun _ h => h) (fun h1 h2 h => h2 (h1 h)) (fun _ _ h => h) has_act (fun _ _ h => h) (fun _ _ h => h) (fun _ _ h => h) (fun _ _ _ h => h)

/-- The current menus of all sessions exist, and all menus belong to `K`. -/
def AllSettled (K : Id → Prop) (S : State σ τ) : Prop := (∀ i ∈ S.sh.tree.menuIds, K i) ∧ ∀ j, S.live j = true → (S.own j).current ∈ S.sh.tree.menuIds

theorem settled_step {A : Nat → App σ τ} {K : Id → Prop} (hA : ∀ i, (A i).Only (KeepsMenus K)) {S S' : State σ τ} {op : Op} (hop : ∀ i a, op = .act i a → KeepsMenus K a)
    (h : step A S op = .ok S') (hS : AllSettled K S) : AllSettled K S' := by
  have gen : (if S.live op.who then
      match work (A op.who) op (S.view op.who) with
      | .ok w => Except.ok (S.after op.who w)
      | .error f => .error f
    else .ok S) = .ok S' → AllSettled K S' := by
    intro h
    split at h
    · rename_i hl
      split at h
      · rename_i w hw
        cases h
        have s1 := work_closed (closed_settled (hA op.who)) (fun w a ha h => settled_act w a ha h) (fun _ _ _ h => h) (fun _ _ h => h) hop hw ⟨hS.2 _ hl, hS.1⟩
        refine ⟨s1.2, fun j hj => ?_⟩
        by_cases e : j = op.who
        · simp only [State.after, e, if_true]; exact s1.1
        · have s2 := work_closed (closed_has (hA op.who) (S.own j).current) has_act (fun _ _ _ h => h) (fun _ _ h => h) hop hw ⟨hS.2 j hj, hS.1⟩
          simp only [State.after, e, if_false]; exact s2.1
      · cases h
    · cases h; exact hS
  cases op with
  | create i n t =>
    simp only [step] at h
    split at h
    · cases h; exact hS
    · cases h
      refine ⟨hS.1, fun j hj => ?_⟩
      simp only at hj ⊢
      by_cases e : j = i
      · simp only [e, if_true]; simp [owned, newSession, State.view, Tree.menuIds]
      · simp only [e, if_false] at hj ⊢; exact hS.2 j hj
  | destroy i =>
    simp only [step] at h
    cases h
    refine ⟨hS.1, fun j hj => ?_⟩
    simp only at hj
    split at hj
    · cases hj
    · exact hS.2 j hj
  | feed i fuel line => exact gen h
  | prompt i => exact gen h
  | enter i => exact gen h
  | exit i => exact gen h
  | up i s => exact gen h
  | down i => exact gen h
  | act i a => exact gen h

theorem step_prompt (A : Nat → App σ τ) (S : State σ τ) (j : Nat) :
    step A S (.prompt j) = if S.live j = true then (match prompt (S.view j) with | .ok w => .ok (S.after j w) | .error f => .error f) else .ok S := rfl

theorem step_feed (A : Nat → App σ τ) (S : State σ τ) (j fuel : Nat) (line : Str) :
    step A S (.feed j fuel line) = if S.live j = true then (match feed (A j) fuel line (S.view j) with | .ok (w, _) => .ok (S.after j w) | .error f => .error f) else .ok S := by
  show (if S.live j = true then (match work (A j) (.feed j fuel line) (S.view j) with | .ok w => Except.ok (S.after j w) | .error f => .error f) else .ok S) = _
  simp only [work]
  split
  · cases feed (A j) fuel line (S.view j) with
    | ok v => rfl
    | error f => rfl
  · rfl

/-- **C71** (part) In every interleaving of operations on any sessions in which no menu is removed (by any session's handlers, actions or from outside; commands may be removed, commands and menus inserted,
    everything enabled and disabled) no session ever uses a destroyed menu or an invalid iterator: showing the prompt works, and feeding a line has no such fault.
    Missing: removal of menus (refuted below), handlers that throw `bad_cast` (C20). -/
theorem C71_sessions_partial (A : Nat → App σ τ) (K : Id → Prop) (hT : ∀ i, (A i).Tame) (hA : ∀ i, (A i).Only (KeepsMenus K)) (ops : List Op) (hop : ∀ i a, .act i a ∈ ops → KeepsMenus K a)
    (S S' : State σ τ) (hK : ∀ i ∈ S.sh.tree.menuIds, K i) (hc : ∀ j, S.live j = true → (S.own j).current ∈ S.sh.tree.menuIds) (h : run A S ops = .ok S') (j : Nat) :
    (∃ S'', step A S' (.prompt j) = .ok S'') ∧ ∀ fuel line f, step A S' (.feed j fuel line) = .error f → f ≠ .ub .dangling ∧ f ≠ .ub .iteratorInvalidation := by
  have hs : AllSettled K S' := by
    have key : ∀ (ops : List Op), (∀ i a, .act i a ∈ ops → KeepsMenus K a) → ∀ S : State σ τ, AllSettled K S → run A S ops = .ok S' → AllSettled K S' := by
      intro ops
      induction ops with
      | nil => intro _ S hS h; cases h; exact hS
      | cons op ops ih =>
        intro hop S hS h
        simp only [run] at h
        split at h
        · rename_i S1 h1
          exact ih (fun i a h => hop i a (by simp [h])) S1 (settled_step hA (fun i a e => hop i a (by simp [e])) h1 hS) h
        · cases h
    exact key ops hop S ⟨hK, hc⟩ h
  refine ⟨?_, ?_⟩
  · rw [step_prompt]
    by_cases hl : S'.live j = true
    · rw [if_pos hl]
      have hm := hs.2 j hl
      obtain ⟨w, hw⟩ : ∃ w, prompt (S'.view j) = .ok w := by
        unfold Verif.prompt
        split
        · exact ⟨_, rfl⟩
        · cases hq : (S'.view j).tree.locate (S'.view j).current with
          | none => exact absurd hq (Tree.locate_some hm)
          | some p =>
            obtain ⟨m, k, q, rfl, _⟩ := Tree.locate_self hq
            exact ⟨_, rfl⟩
      rw [hw]
      exact ⟨_, rfl⟩
    · rw [if_neg hl]; exact ⟨_, rfl⟩
  · intro fuel line f hf
    rw [step_feed] at hf
    by_cases hl : S'.live j = true
    · rw [if_pos hl] at hf
      cases hw : feed (A j) fuel line (S'.view j) with
      | ok v => rw [hw] at hf; cases hf
      | error g =>
        rw [hw] at hf
        cases hf
        exact C20_feed_partial (A j) (hT j) fuel line (S'.view j) (hs.2 j hl) _ hw
    · rw [if_neg hl] at hf; cases hf

/-- In the application `echo` (in which nothing is removed) with a handler that disables the menu `sub` and inserts a command into it. -/
example : ({ echo with handler := fun _ s _ => ⟨s, [.disable 3, .insert 3 (.cmd (Sample.cmd 99 bs!"new" .freeform 99) .nil)], none⟩ } : App (List Nat) (List Str)).Tame ∧
    ({ echo with handler := fun _ s _ => ⟨s, [.disable 3, .insert 3 (.cmd (Sample.cmd 99 bs!"new" .freeform 99) .nil)], none⟩ } : App (List Nat) (List Str)).Only (KeepsMenus fun _ => True) ∧
    (∀ j, two.live j = true → (two.own j).current ∈ two.sh.tree.menuIds) := by
  refine ⟨⟨?_, ?_, ?_, (fun _ _ _ h => by cases h), ?_⟩, ⟨?_, ?_, ?_, ?_, ?_, ?_, ?_⟩, ?_⟩
  · intro f s v w h; cases h
  · intro f h; cases h
  · intro f h s w hw; cases h; cases hw
  · intro f h; cases h
  · intro f s v a ha
    simp only [List.mem_cons, List.not_mem_nil, or_false] at ha
    rcases ha with rfl | rfl
    · trivial
    · intro i hi; trivial
  · intro f h; cases h
  · intro f h; cases h
  · intro f h s a ha; cases h; cases ha
  · intro f h; cases h
  · intro f h; cases h
  · intro f h; cases h
  · intro j _
    show (0 : Nat) ∈ Sample.tree.menuIds
    decide

/-- **C71** is false of the code: session 1 is in the menu `sub`; session 0, which stays in the root menu, runs the command `sub drop`, which removes this menu. All that session 0 does is in order, but the
    next line or prompt of session 1 uses the destroyed menu. -/
theorem C71_removed_menu_refuted : ∃ S : State (List Nat) (List Str), run (fun _ => Sample.tame) two [.feed 1 1 bs!"sub", .feed 0 1 bs!"sub drop"] = .ok S ∧
    (∃ S', step (fun _ => Sample.tame) S (.prompt 0) = .ok S') ∧
    step (fun _ => Sample.tame) S (.prompt 1) = .error (.ub .dangling) ∧ ∀ fuel, step (fun _ => Sample.tame) S (.feed 1 (fuel + 1) bs!"x") = .error (.ub .dangling) :=
  ⟨_, rfl, ⟨_, rfl⟩, rfl, fun _ => rfl⟩

end Verif.Props
