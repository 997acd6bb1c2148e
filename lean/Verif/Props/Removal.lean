import Verif.Props.Sessions
import Verif.Proofs.TreePath

set_option linter.unusedSimpArgs false

/-!
# C71: exactly which removals harm the other sessions
-/

namespace Verif.Props
open Spec Sessions

variable {σ τ : Type}

/-- Some function of the application can do this. -/
def _root_.Verif.App.Does (A : App σ τ) (a : Act) : Prop :=
  (∃ f s v, a ∈ (A.handler f s v).acts) ∨ (∃ f s l e, A.onException = some f ∧ a ∈ (f s l e).acts) ∨ (∃ f s l, A.onWrong = some f ∧ a ∈ (f s l).acts) ∨
  (∃ f s, A.exitSession = some f ∧ a ∈ (f s).acts) ∨ (∃ f s, A.exitGlobal = some f ∧ a ∈ (f s).acts) ∨
  (∃ f s, A.enterSession = some f ∧ a ∈ (f s).acts) ∨ ∃ f s, A.enterGlobal = some f ∧ a ∈ (f s).acts

theorem only_does (A : App σ τ) : A.Only A.Does where
  handler := fun f s v _ h => .inl ⟨f, s, v, h⟩
  exception := fun f hf s l e _ h => .inr (.inl ⟨f, s, l, e, hf, h⟩)
  wrong := fun f hf s l _ h => .inr (.inr (.inl ⟨f, s, l, hf, h⟩))
  exitSession := fun f hf s _ h => .inr (.inr (.inr (.inl ⟨f, s, hf, h⟩)))
  exitGlobal := fun f hf s _ h => .inr (.inr (.inr (.inr (.inl ⟨f, s, hf, h⟩))))
  enterSession := fun f hf s _ h => .inr (.inr (.inr (.inr (.inr (.inl ⟨f, s, hf, h⟩)))))
  enterGlobal := fun f hf s _ h => .inr (.inr (.inr (.inr (.inr (.inr ⟨f, s, hf, h⟩)))))

/-- What user code can do to the menus depends on nothing else. -/
theorem act_tree {w v : World σ τ} (ht : w.tree = v.tree) (hu : w.used = v.used) (a : Act) : (w.act a).tree = (v.act a).tree ∧ (w.act a).used = (v.act a).used := by
  cases a <;> simp only [World.act, ht, hu] <;> (repeat' split) <;> first | exact ⟨ht, hu⟩ | exact ⟨rfl, rfl⟩ | exact ⟨rfl, hu⟩ | exact ⟨ht, rfl⟩ | simp_all

theorem acts_tree (as : List Act) : ∀ {w v : World σ τ}, w.tree = v.tree → w.used = v.used →
    (as.foldl World.act w).tree = (as.foldl World.act v).tree ∧ (as.foldl World.act w).used = (as.foldl World.act v).used := by
  induction as with
  | nil => intro w v h1 h2; exact ⟨h1, h2⟩
  | cons a as ih => intro w v h1 h2; exact ih (act_tree h1 h2 a).1 (act_tree h1 h2 a).2

/-- The menus have been changed by such actions, one after the other, and by nothing else. -/
def Traced (OK : Act → Prop) (w w' : World σ τ) : Prop :=
  ∃ as : List Act, (∀ a ∈ as, OK a) ∧ w'.tree = (as.foldl World.act w).tree ∧ w'.used = (as.foldl World.act w).used

theorem traced_same {OK : Act → Prop} {w w' : World σ τ} (ht : w'.tree = w.tree) (hu : w'.used = w.used) : Traced OK w w' := ⟨[], by simp, ht, hu⟩

theorem traced_trans {OK : Act → Prop} {a b c : World σ τ} (h1 : Traced OK a b) (h2 : Traced OK b c) : Traced OK a c := by
  obtain ⟨as, o1, t1, u1⟩ := h1
  obtain ⟨bs, o2, t2, u2⟩ := h2
  refine ⟨as ++ bs, fun x hx => (List.mem_append.1 hx).elim (o1 x) (o2 x), ?_, ?_⟩
  · rw [t2, List.foldl_append]; exact (acts_tree bs t1 u1).1
  · rw [u2, List.foldl_append]; exact (acts_tree bs t1 u1).2

theorem closed_traced {A : App σ τ} {OK : Act → Prop} (hA : A.Only OK) : Closed A (Traced OK) :=
  closed_acts hA (fun _ => traced_same rfl rfl) traced_trans (fun _ _ => traced_same rfl rfl) (fun w a ha => ⟨[a], by simpa using ha, rfl, rfl⟩)
    (fun _ _ => traced_same rfl rfl) (fun _ _ => traced_same rfl rfl) (fun _ _ => traced_same rfl rfl) (fun _ _ _ => traced_same rfl rfl)

/-- The menus as all sessions see them after some actions. -/
def State.acted (S : State σ τ) (as : List Act) : Tree × List Id := ((as.foldl World.act (S.view 0)).tree, (as.foldl World.act (S.view 0)).used)

theorem acted_append (S S' : State σ τ) (as bs : List Act) (h : (S'.sh.tree, S'.sh.used) = State.acted S as) : State.acted S (as ++ bs) = State.acted S' bs := by
  unfold State.acted at *
  rw [List.foldl_append]
  have h1 : (S'.view 0).tree = (List.foldl World.act (S.view 0) as).tree := congrArg Prod.fst h
  have h2 : (S'.view 0).used = (List.foldl World.act (S.view 0) as).used := congrArg Prod.snd h
  have := acts_tree bs h1 h2
  rw [this.1, this.2]

theorem acted_step {A : Nat → App σ τ} {S S' : State σ τ} {op : Op} (h : step A S op = .ok S') :
    ∃ as : List Act, (∀ a ∈ as, (A op.who).Does a ∨ op = .act op.who a) ∧ (S'.sh.tree, S'.sh.used) = State.acted S as := by
  have gen : (if S.live op.who then
      match work (A op.who) op (S.view op.who) with
      | .ok w => Except.ok (S.after op.who w)
      | .error f => .error f
    else .ok S) = .ok S' → ∃ as : List Act, (∀ a ∈ as, (A op.who).Does a ∨ op = .act op.who a) ∧ (S'.sh.tree, S'.sh.used) = State.acted S as := by
    intro h
    split at h
    · split at h
      · rename_i w hw
        cases h
        have only : (A op.who).Only (fun a => (A op.who).Does a ∨ op = .act op.who a) :=
          let o := only_does (A op.who)
          ⟨fun f s v a h => .inl (o.handler f s v a h), fun f hf s l e a h => .inl (o.exception f hf s l e a h), fun f hf s l a h => .inl (o.wrong f hf s l a h), fun f hf s a h => .inl (o.exitSession f hf s a h),
            fun f hf s a h => .inl (o.exitGlobal f hf s a h), fun f hf s a h => .inl (o.enterSession f hf s a h), fun f hf s a h => .inl (o.enterGlobal f hf s a h)⟩
        obtain ⟨as, h1, h2, h3⟩ := work_closed (OK := fun a => (A op.who).Does a ∨ op = .act op.who a) (closed_traced only) (fun w a ha => ⟨[a], by simpa using ha, rfl, rfl⟩) (fun _ _ _ => traced_same rfl rfl) (fun _ _ => traced_same rfl rfl)
          (fun i a e => .inr (by subst e; rfl)) hw
        refine ⟨as, h1, ?_⟩
        have := acts_tree as (w := S.view op.who) (v := S.view 0) rfl rfl
        simp only [State.after, shared, State.acted, h2, h3, this.1, this.2]
      · cases h
    · cases h; exact ⟨[], by simp, rfl⟩
  cases op with
  | create i n t =>
    simp only [step] at h
    split at h <;> (cases h; exact ⟨[], by simp, rfl⟩)
  | destroy i => cases h; exact ⟨[], by simp, rfl⟩
  | feed i fuel line => exact gen h
  | prompt i => exact gen h
  | enter i => exact gen h
  | exit i => exact gen h
  | up i s => exact gen h
  | down i => exact gen h
  | act i a => exact gen h

theorem acted_run {A : Nat → App σ τ} (ops : List Op) : ∀ {S S' : State σ τ}, run A S ops = .ok S' →
    ∃ as : List Act, (∀ a ∈ as, ∃ op ∈ ops, (A op.who).Does a ∨ op = .act op.who a) ∧ (S'.sh.tree, S'.sh.used) = State.acted S as := by
  induction ops with
  | nil => intro S S' h; cases h; exact ⟨[], by simp, rfl⟩
  | cons op ops ih =>
    intro S S' h
    simp only [run] at h
    split at h
    · rename_i S1 h1
      obtain ⟨as, a1, a2⟩ := acted_step h1
      obtain ⟨bs, b1, b2⟩ := ih h
      refine ⟨as ++ bs, fun x hx => ?_, by rw [acted_append S S1 as bs a2]; exact b2⟩
      rcases List.mem_append.1 hx with hx | hx
      · exact ⟨op, by simp, a1 x hx⟩
      · obtain ⟨o, ho, hh⟩ := b1 x hx; exact ⟨o, by simp [ho], hh⟩
    · cases h

theorem said (a : Act) : Says (fun _ => True) a := by
  intro s _; trivial

theorem only_said (A : App σ τ) : A.Only (Says fun _ => True) :=
  ⟨fun _ _ _ a _ => said a, fun _ _ _ _ _ a _ => said a, fun _ _ _ _ a _ => said a, fun _ _ _ a _ => said a, fun _ _ _ a _ => said a, fun _ _ _ a _ => said a, fun _ _ _ a _ => said a⟩

theorem untouched {A : Nat → App σ τ} {j : Nat} (ops : List Op) : ∀ {S S' : State σ τ}, (∀ op ∈ ops, op.who ≠ j) → run A S ops = .ok S' →
    S'.live j = S.live j ∧ (S'.own j).current = (S.own j).current ∧ (S'.own j).exit = (S.own j).exit := by
  induction ops with
  | nil => intro S S' _ h; cases h; exact ⟨rfl, rfl, rfl⟩
  | cons op ops ih =>
    intro S S' hj h
    simp only [run] at h
    split at h
    · rename_i S1 h1
      obtain ⟨l, texts, _, o⟩ := other_step (P := fun _ => True) (fun i => only_said (A i)) (fun _ a _ => said a) h1 (hj op (by simp))
      obtain ⟨i1, i2, i3⟩ := ih (fun o ho => hj o (by simp [ho])) h
      rw [o] at i2 i3
      exact ⟨i1.trans l, i2, i3⟩
    · cases h

/-- **C71** Exactly which removals harm a session. Whatever the other sessions do, and whatever is done from outside, while session `j` waits for its next line: the menus change by the actions of user code only (`as`), and session `j`, which
    is in the menu with the path `p`, works afterwards if and only if none of these actions removes its menu or one above it (the root menu cannot be removed); otherwise already its prompt uses a destroyed menu. -/
theorem C71_removal_exact (A : Nat → App σ τ) (ops : List Op) (S S' : State σ τ) (hw : TreeWF S.sh.tree S.sh.used) (h : run A S ops = .ok S') (j : Nat) (hj : ∀ op ∈ ops, op.who ≠ j)
    (hl : S.live j = true) (hx : (S.own j).exit = false) (p : Path) (hp : S.sh.tree.locate (S.own j).current = some p) :
    ∃ as : List Act, (∀ a ∈ as, ∃ op ∈ ops, (A op.who).Does a ∨ op = .act op.who a) ∧ S'.sh.tree = (State.acted S as).1 ∧
      ((∀ id, .remove id ∈ as → id = S.sh.tree.root.id ∨ ∀ x ∈ p, x.1.id ≠ id) → (∃ S'', step A S' (.prompt j) = .ok S'') ∧
        ((A j).Tame → ∀ fuel line f, step A S' (.feed j fuel line) = .error f → f ≠ .ub .dangling ∧ f ≠ .ub .iteratorInvalidation)) ∧
      ((∃ id, .remove id ∈ as ∧ id ≠ S.sh.tree.root.id ∧ ∃ x ∈ p, x.1.id = id) → step A S' (.prompt j) = .error (.ub .dangling)) := by
  obtain ⟨as, h1, h2⟩ := acted_run ops h
  obtain ⟨u1, u2, u3⟩ := untouched ops hj h
  have h3 : S'.sh.tree = (State.acted S as).1 := congrArg Prod.fst h2
  refine ⟨as, h1, h3, ?_⟩
  have key := acts_path as (w := S.view j) hw hp
  have cur : (as.foldl World.act (S.view j)).current = (S.own j).current := by
    have : ∀ (as : List Act) (w : World σ τ), (as.foldl World.act w).current = w.current := by
      intro as; induction as with
      | nil => intro w; rfl
      | cons a as ih => intro w; exact (ih _).trans (act_current w a).1
    exact this as _
  have tr : (as.foldl World.act (S.view j)).tree = S'.sh.tree := by
    rw [h3]; exact (acts_tree as (w := S.view j) (v := S.view 0) rfl rfl).1
  rw [cur, tr] at key
  have pr : step A S' (.prompt j) = match S'.sh.tree.locate (S.own j).current with | some _ => step A S' (.prompt j) | none => .error (.ub .dangling) := by
    cases hq : S'.sh.tree.locate (S.own j).current with
    | some q => rfl
    | none =>
      rw [step_prompt, if_pos (u1.trans hl)]
      have : prompt (S'.view j) = .error (.ub .dangling) := by
        unfold Verif.prompt
        simp only [State.view, u2, u3, hx, hq, Bool.false_eq_true, if_false]
      rw [this]
  constructor
  · intro hall
    have ok := key.2 (fun id hm hne hin => by
      obtain ⟨m, g1, rfl⟩ := List.mem_map.1 hin
      obtain ⟨x, g2, rfl⟩ := List.mem_map.1 g1
      exact (hall _ hm).elim hne (fun g => g x g2 rfl))
    refine ⟨?_, fun hT fuel line f hf => ?_⟩
    · rw [step_prompt, if_pos (u1.trans hl)]
      obtain ⟨w, hw⟩ : ∃ w, prompt (S'.view j) = .ok w := by
        unfold Verif.prompt
        simp only [State.view, u2, u3, hx, Bool.false_eq_true, if_false]
        cases hq : S'.sh.tree.locate (S.own j).current with
        | none => exact absurd hq ok
        | some q =>
          obtain ⟨m, k, q', rfl, _⟩ := Tree.locate_self hq
          exact ⟨_, rfl⟩
      rw [hw]; exact ⟨_, rfl⟩
    · rw [step_feed, if_pos (u1.trans hl)] at hf
      have hin : (S'.view j).current ∈ (S'.view j).tree.menuIds := by
        show (S'.own j).current ∈ S'.sh.tree.menuIds
        rw [u2]
        cases Classical.em ((S.own j).current ∈ S'.sh.tree.menuIds) with
        | inl h => exact h
        | inr h =>
          exfalso
          apply ok
          simp only [Tree.menuIds, List.mem_cons, not_or] at h
          unfold Tree.locate
          rw [if_neg (fun e => h.1 e.symm)]
          exact Forest.locate_none h.2
      cases hw2 : feed (A j) fuel line (S'.view j) with
      | ok v => rw [hw2] at hf; cases hf
      | error g =>
        rw [hw2] at hf
        cases hf
        exact C20_feed_partial (A j) hT fuel line (S'.view j) hin _ hw2
  · rintro ⟨id, hm, hne, x, hx2, hid⟩
    have gone : S'.sh.tree.locate (S.own j).current = none := by
      cases hq : S'.sh.tree.locate (S.own j).current with
      | none => rfl
      | some q => exact absurd (List.mem_map.2 ⟨x.1, List.mem_map.2 ⟨x, hx2, rfl⟩, hid⟩) (key.1 (by rw [hq]; simp) id hm hne)
    rw [pr, gone]

/-- Session 1 is in the menu `sub`; session 0 runs `any` and a command is removed, or it runs `sub drop`. -/
example : ∃ S S1 S2 : State (List Nat) (List Str), run (fun _ => Sample.tame) two [.feed 1 1 bs!"sub"] = .ok S ∧ TreeWF S.sh.tree S.sh.used ∧
    S.sh.tree.locate (S.own 1).current = some [(Sample.sub, Sample.subKids), (Sample.root, Sample.kids)] ∧
    run (fun _ => Sample.tame) S [.feed 0 1 bs!"any", .act 0 (.remove 5)] = .ok S1 ∧ (∃ S', step (fun _ => Sample.tame) S1 (.prompt 1) = .ok S') ∧
    run (fun _ => Sample.tame) S [.feed 0 1 bs!"sub drop"] = .ok S2 ∧ step (fun _ => Sample.tame) S2 (.prompt 1) = .error (.ub .dangling) :=
  ⟨_, _, _, rfl, sample_wf, rfl, rfl, ⟨_, rfl⟩, rfl, rfl⟩

/-! ### C20: whole executions -/

/-- What happens to the menus and to where the session is: user code acts, or the session goes to a menu. -/
inductive Move where
  | act (a : Act)
  | go (i : Id)

def Move.apply (w : World σ τ) : Move → World σ τ
  | .act a => w.act a
  | .go i => { w with current := i }

/-- The state after some moves, as far as menus and the current menu are concerned. -/
def replay (w : World σ τ) (ms : List Move) : World σ τ := ms.foldl Move.apply w

/-- The session goes to menus that exist at the time. -/
def Goes (w : World σ τ) (ms : List Move) : Prop := ∀ as i bs, ms = as ++ .go i :: bs → i ∈ (replay w as).tree.menuIds

/-- Since the session last entered a menu, that menu or one above it has been removed. -/
def Pulled (w : World σ τ) (ms : List Move) : Prop :=
  ∃ as id bs p, ms = as ++ .act (.remove id) :: bs ∧ (∀ i, .go i ∉ bs) ∧ (replay w as).tree.locate (replay w as).current = some p ∧ id ≠ w.tree.root.id ∧ ∃ x ∈ p, x.1.id = id

theorem snoc_cases {α : Type} (l : List α) : l = [] ∨ ∃ l' x, l = l' ++ [x] := by
  rcases List.eq_nil_or_concat l with h | ⟨l', x, h⟩
  · exact .inl h
  · exact .inr ⟨l', x, by rw [h, List.concat_eq_append]⟩

theorem replay_snoc (w : World σ τ) (ms : List Move) (m : Move) : replay w (ms ++ [m]) = m.apply (replay w ms) := by simp [replay]

theorem goes_snoc {w : World σ τ} {ms : List Move} {m : Move} (h : Goes w (ms ++ [m])) : Goes w ms := fun as i bs e => h as i (bs ++ [m]) (by rw [e]; simp)

theorem snoc_split {α : Type} {l as bs : List α} {x y : α} (h : l ++ [x] = as ++ y :: bs) : (bs = [] ∧ as = l ∧ x = y) ∨ ∃ cs, bs = cs ++ [x] ∧ l = as ++ y :: cs := by
  rcases snoc_cases bs with rfl | ⟨cs, z, rfl⟩
  · left
    have := List.append_inj' h (by simp)
    exact ⟨rfl, this.1.symm, by simpa using this.2⟩
  · right
    have h' : l ++ [x] = (as ++ y :: cs) ++ [z] := by rw [h]; simp
    have := List.append_inj' h' (by simp)
    exact ⟨cs, by simpa using this.2.symm, this.1⟩

theorem gone_locate {t : Tree} {used : List Id} {i : Id} (h : Gone i t used) : t.locate i = none := by
  have h2 := h.2
  simp only [Tree.ids, List.mem_cons, not_or] at h2
  unfold Tree.locate
  rw [if_neg (fun e => h2.1 e.symm)]
  exact Forest.locate_none (fun hm => h2.2 (Forest.menuIds_ids _ _ hm))

/-- Where the session is, exists or has been removed. -/
theorem moves_path (w : World σ τ) (hw : TreeWF w.tree w.used) (p : Path) (hp : w.tree.locate w.current = some p) (n : Nat) : ∀ ms : List Move, ms.length = n → Goes w ms →
    TreeWF (replay w ms).tree (replay w ms).used ∧ (replay w ms).tree.root = w.tree.root ∧
    (((∃ q, (replay w ms).tree.locate (replay w ms).current = some q) ∧ ¬ Pulled w ms) ∨ (Gone (replay w ms).current (replay w ms).tree (replay w ms).used ∧ Pulled w ms)) := by
  induction n with
  | zero =>
    intro ms hl _
    cases List.length_eq_zero_iff.1 hl
    refine ⟨hw, rfl, .inl ⟨⟨p, hp⟩, ?_⟩⟩
    rintro ⟨as, id, bs, q, he, _⟩
    cases as <;> cases he
  | succ n ih =>
    intro ms hl hg
    rcases snoc_cases ms with rfl | ⟨ms, m, rfl⟩
    · simp at hl
    obtain ⟨i1, i2, i3⟩ := ih ms (by simpa using hl) (goes_snoc hg)
    rw [replay_snoc]
    cases m with
    | go i =>
      refine ⟨i1, i2, .inl ⟨?_, ?_⟩⟩
      · have := hg ms i [] rfl
        cases hq : (replay w ms).tree.locate i with
        | none => exact absurd hq (Tree.locate_some this)
        | some q => exact ⟨q, hq⟩
      · rintro ⟨as, id, bs, q, he, hno, _⟩
        rcases snoc_split he with ⟨_, _, e⟩ | ⟨cs, rfl, _⟩
        · cases e
        · exact hno i (by simp)
    | act a =>
      have e1 : TreeWF ((replay w ms).act a).tree ((replay w ms).act a).used := stable_act stable_wf _ a trivial i1
      refine ⟨e1, (act_root _ a).trans i2, ?_⟩
      rcases i3 with ⟨⟨q, hq⟩, hn⟩ | ⟨hgone, hpull⟩
      · obtain ⟨a1, a2⟩ := act_path i1 hq a
        by_cases hbad : ∃ id, a = .remove id ∧ id ≠ (replay w ms).tree.root.id ∧ id ∈ (names q).map (·.id)
        · right
          refine ⟨?_, ?_⟩
          · show Gone ((replay w ms).act a).current _ _
            rw [(act_current _ a).1]; exact a2 hbad
          · obtain ⟨id, rfl, hne, hin⟩ := hbad
            obtain ⟨m, g1, rfl⟩ := List.mem_map.1 hin
            obtain ⟨x, g2, rfl⟩ := List.mem_map.1 g1
            exact ⟨ms, _, [], q, rfl, by simp, hq, by rw [← i2]; exact hne, x, g2, rfl⟩
        · left
          obtain ⟨q', hq', _⟩ := a1 (fun id he hne hin => hbad ⟨id, he, hne, hin⟩)
          refine ⟨⟨q', hq'⟩, ?_⟩
          rintro ⟨as, id, bs, r, he, hno, hr, hne, x, hx, hid⟩
          rcases snoc_split he with ⟨rfl, rfl, e⟩ | ⟨cs, rfl, rfl⟩
          · cases e
            rw [hr] at hq
            cases hq
            exact hbad ⟨id, rfl, by rw [i2]; exact hne, List.mem_map.2 ⟨x.1, List.mem_map.2 ⟨x, hx, rfl⟩, hid⟩⟩
          · exact hn ⟨as, id, cs, r, rfl, fun i hi => hno i (by simp [hi]), hr, hne, x, hx, hid⟩
      · right
        refine ⟨?_, ?_⟩
        · show Gone ((replay w ms).act a).current _ _
          rw [(act_current _ a).1]; exact stable_act (stable_gone _) _ a trivial hgone
        · obtain ⟨as, id, bs, r, rfl, hno, hr⟩ := hpull
          refine ⟨as, id, bs ++ [.act a], r, by simp, fun i hi => ?_, hr⟩
          rcases List.mem_append.1 hi with hi | hi
          · exact hno i hi
          · simp at hi

/-- The menus and the current menu have changed by such moves only. -/
def Went (OK : Act → Prop) (w w' : World σ τ) : Prop :=
  ∃ ms : List Move, (∀ a, .act a ∈ ms → OK a) ∧ Goes w ms ∧ w'.tree = (replay w ms).tree ∧ w'.used = (replay w ms).used ∧ w'.current = (replay w ms).current

theorem replay_same (ms : List Move) : ∀ {w v : World σ τ}, w.tree = v.tree → w.used = v.used → w.current = v.current →
    (replay w ms).tree = (replay v ms).tree ∧ (replay w ms).used = (replay v ms).used ∧ (replay w ms).current = (replay v ms).current := by
  induction ms with
  | nil => intro w v h1 h2 h3; exact ⟨h1, h2, h3⟩
  | cons m ms ih =>
    intro w v h1 h2 h3
    show (replay (m.apply w) ms).tree = (replay (m.apply v) ms).tree ∧ (replay (m.apply w) ms).used = (replay (m.apply v) ms).used ∧ (replay (m.apply w) ms).current = (replay (m.apply v) ms).current
    cases m with
    | act a => exact ih (act_tree h1 h2 a).1 (act_tree h1 h2 a).2 (by simp only [Move.apply]; rw [(act_current w a).1, (act_current v a).1, h3])
    | go i => exact ih h1 h2 rfl

theorem went_same {OK : Act → Prop} {w w' : World σ τ} (ht : w'.tree = w.tree) (hu : w'.used = w.used) (hc : w'.current = w.current) : Went OK w w' :=
  ⟨[], by simp, (fun as i bs h => by cases as <;> cases h), ht, hu, hc⟩

theorem went_trans {OK : Act → Prop} {a b c : World σ τ} (h1 : Went OK a b) (h2 : Went OK b c) : Went OK a c := by
  obtain ⟨as, o1, g1, t1, u1, c1⟩ := h1
  obtain ⟨bs, o2, g2, t2, u2, c2⟩ := h2
  have app : ∀ cs, replay a (as ++ cs) = replay (replay a as) cs := fun cs => by simp [replay]
  obtain ⟨e1, e2, e3⟩ := replay_same bs t1 u1 c1
  refine ⟨as ++ bs, fun x hx => (List.mem_append.1 hx).elim (o1 x) (o2 x), ?_, by rw [app, t2, e1], by rw [app, u2, e2], by rw [app, c2, e3]⟩
  intro cs i ds he
  rcases List.append_eq_append_iff.1 he with ⟨es, h1, h2⟩ | ⟨es, h1, h2⟩
  · -- the split is in the second part
    subst h1
    rw [app, ← (replay_same es t1 u1 c1).1]
    exact g2 es i ds h2
  · cases es with
    | nil =>
      simp only [List.append_nil, List.nil_append] at h1 h2
      subst h1
      have := g2 [] i ds h2.symm
      rw [show (replay b []).tree = b.tree from rfl, t1] at this
      exact this
    | cons e es =>
      simp only [List.cons_append, List.cons.injEq] at h2
      obtain ⟨rfl, _⟩ := h2
      exact g1 cs i es h1

theorem went_act {OK : Act → Prop} (w : World σ τ) (a : Act) (ha : OK a) : Went OK w (w.act a) :=
  ⟨[.act a], by simpa using ha, (fun as i bs h => by
    cases as with
    | nil => cases h
    | cons x as => cases as <;> cases h), rfl, rfl, rfl⟩

theorem went_effect {OK : Act → Prop} (w : World σ τ) (e : Effect σ) (he : ∀ a ∈ e.acts, OK a) : Went OK w (w.effect e) :=
  rel_effect (fun _ => went_same rfl rfl rfl) went_trans (fun _ _ => went_same rfl rfl rfl) went_act w e he

theorem closed_went {A : App σ τ} {OK : Act → Prop} (hA : A.Only OK) : Closed A (Went OK) where
  refl := fun _ => went_same rfl rfl rfl
  trans := went_trans
  handler := fun c vals w => went_trans (went_effect w _ (hA.handler _ _ _)) (went_same rfl rfl rfl)
  note := fun w e _ => went_same rfl rfl rfl
  put := fun w s => went_same rfl rfl rfl
  exception := fun f hf w l e => went_effect w _ (hA.exception f hf _ _ _)
  wrong := fun f hf w l => went_effect w _ (hA.wrong f hf _ _)
  exitSession := fun f hf w => went_effect w _ (hA.exitSession f hf _)
  exitGlobal := fun f hf w => went_effect w _ (hA.exitGlobal f hf _)
  enterSession := fun f hf w => went_effect w _ (hA.enterSession f hf _)
  enterGlobal := fun f hf w => went_effect w _ (hA.enterGlobal f hf _)
  enter := fun w i hi => ⟨[.go i], by simp, (fun as j bs h => by
    cases as with
    | nil => cases h; exact hi
    | cons x as => cases as <;> cases h), rfl, rfl, rfl⟩
  saved := fun w _ _ => went_same rfl rfl rfl
  unsaved := fun w _ => went_same rfl rfl rfl

/-- **C20** Exactly when a session uses a destroyed menu, for all executions and all user code: what happens to the menus is a sequence of actions of user code (or from outside) and of steps of the session to menus that exist; at the end the session
    can go on if and only if, since it last entered a menu, neither that menu nor one above it has been removed. Otherwise already the prompt uses a destroyed menu. -/
theorem C20_dangling_exact (A : App σ τ) (OK : Act → Prop) (Shown : Str → Prop) (w w' : World σ τ) (hw : TreeWF w.tree w.used) (p : Path) (hp : w.tree.locate w.current = some p) (h : Exec A OK Shown w w') :
    ∃ ms : List Move, (∀ a, .act a ∈ ms → A.Does a ∨ OK a) ∧ Goes w ms ∧ w'.tree = (replay w ms).tree ∧ w'.current = (replay w ms).current ∧
      (¬ Pulled w ms → (∃ w'', prompt w' = .ok w'') ∧ (A.Tame → ∀ fuel line f, feed A fuel line w' = .error f → f ≠ .ub .dangling ∧ f ≠ .ub .iteratorInvalidation)) ∧
      (Pulled w ms → w'.exit = false → prompt w' = .error (.ub .dangling)) := by
  have only : A.Only (fun a => A.Does a ∨ OK a) :=
    let o := only_does A
    ⟨fun f s v a h => .inl (o.handler f s v a h), fun f hf s l e a h => .inl (o.exception f hf s l e a h), fun f hf s l a h => .inl (o.wrong f hf s l a h), fun f hf s a h => .inl (o.exitSession f hf s a h),
      fun f hf s a h => .inl (o.exitGlobal f hf s a h), fun f hf s a h => .inl (o.enterSession f hf s a h), fun f hf s a h => .inl (o.enterGlobal f hf s a h)⟩
  obtain ⟨ms, m1, m2, m3, m4, m5⟩ := exec_closed (closed_went only) (fun w a ha => went_act w a (.inr ha)) (fun _ _ => went_same rfl rfl rfl) (fun _ _ => went_same rfl rfl rfl) h
  obtain ⟨_, _, key⟩ := moves_path w hw p hp ms.length ms rfl m2
  refine ⟨ms, m1, m2, m3, m5, fun hn => ?_, fun hpull hx => ?_⟩
  · rcases key with ⟨⟨q, hq⟩, _⟩ | ⟨_, hp⟩
    · rw [← m3, ← m5] at hq
      refine ⟨?_, fun hT fuel line f hf => C20_feed_partial A hT fuel line w' ?_ f hf⟩
      · unfold Verif.prompt
        split
        · exact ⟨_, rfl⟩
        · rw [hq]
          obtain ⟨m, k, q', rfl, _⟩ := Tree.locate_self hq
          exact ⟨_, rfl⟩
      · cases Classical.em (w'.current ∈ w'.tree.menuIds) with
        | inl h => exact h
        | inr h =>
          exfalso
          simp only [Tree.menuIds, List.mem_cons, not_or] at h
          unfold Tree.locate at hq
          rw [if_neg (fun e => h.1 e.symm), Forest.locate_none h.2] at hq
          cases hq
    · exact absurd hp hn
  · rcases key with ⟨_, hn⟩ | ⟨hg, _⟩
    · exact absurd hpull hn
    · have := gone_locate hg
      rw [← m3, ← m5] at this
      unfold Verif.prompt
      simp only [hx, this, Bool.false_eq_true, if_false]

/-- The session enters `sub`, leaves it, and `sub` is removed from outside; or the other way round. -/
example : (∃ w1 w2, feed Sample.tame 1 bs!"sub" Sample.world = .ok (w1, none) ∧ feed Sample.tame 1 bs!".." w1 = .ok (w2, none) ∧
      Exec Sample.tame (fun a => a = .remove 3) (fun _ => True) Sample.world (w2.act (.remove 3)) ∧ ∃ w3, prompt (w2.act (.remove 3)) = .ok w3) ∧
    (∃ w1, feed Sample.tame 1 bs!"sub deep" Sample.world = .ok (w1, none) ∧ Exec Sample.tame (fun a => a = .remove 3) (fun _ => True) Sample.world (w1.act (.remove 3)) ∧
      prompt (w1.act (.remove 3)) = .error (.ub .dangling)) :=
  ⟨⟨_, _, rfl, rfl, .act _ rfl (.feed (fuel := 1) (line := bs!"..") (x := none) (.feed (fuel := 1) (line := bs!"sub") (x := none) (.refl _) rfl) rfl), _, rfl⟩,
    _, rfl, .act _ rfl (.feed (fuel := 1) (line := bs!"sub deep") (x := none) (.refl _) rfl), rfl⟩

/-- The moves of such executions. -/
example : ¬ Pulled Sample.world [.go 3, .go 0, .act (.remove 3)] ∧ Pulled Sample.world [.go 12, .act (.remove 3), .act (.out bs!"x")] := by
  constructor
  · rintro ⟨as, id, bs, p, he, hno, hp, hne, x, hx, hid⟩
    match as, he with
    | [_, _], he =>
      cases he
      cases hp
      cases List.mem_singleton.1 hx
      exact absurd hid (by decide)
    | _ :: _ :: _ :: _ :: _, he => cases he
    | _ :: _ :: _ :: [], he => cases he
  · exact ⟨[.go 12], 3, [.act (.out bs!"x")], _, rfl, by simp, rfl, by decide, (Sample.sub, Sample.subKids), by simp, rfl⟩

end Verif.Props
