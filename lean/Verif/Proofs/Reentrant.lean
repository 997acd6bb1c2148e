import Verif.Spec.Reentrant
import Verif.Proofs.Tree
import Verif.Proofs.FeedInv
import Verif.Proofs.Frame

set_option linter.unusedSimpArgs false
set_option linter.unusedSectionVars false

/-!
# Proofs about handlers that use the session they are called from
-/

namespace Verif.Reentrant
open Spec
open FromString (Value ConvErr)

variable {σ τ : Type}

section
variable (p : Platform) (call : Cmd → List Value → World σ τ → Except Fault (World σ τ × Option Exn))

/-- After a handler of a command of that kind has ended. -/
def ended (k : Kind) : Except Fault (World σ τ × Option Exn) → Res σ τ
  | .error f => .error f
  | .ok (w, none) => .ok (w, .found)
  | .ok (w, some (.badCast s)) => match k with
    | .variadic _ => .ok (w, .notFound)
    | .freeform => .ok (w, .thrown (.badCast s))
  | .ok (w, some e) => .ok (w, .thrown e)

/-- The rest of `Exec` after its name has matched. -/
def perform (c : Cmd) (args : List Str) (w : World σ τ) : Res σ τ :=
  match verdict p c args with
  | .reject => .ok (w, .notFound)
  | .raise e => .ok (w, .thrown e)
  | .crash u => .error (.ub u)
  | .run vals => ended c.kind (call c vals w)

theorem execCmd_eq (c : Cmd) (t : Str) (args : List Str) (w : World σ τ) :
    execCmd p call c (t :: args) w = if w.dis c.id = false ∧ c.name = t then perform p call c args w else .ok (w, .notFound) := by
  unfold execCmd perform verdict
  by_cases hd : w.dis c.id = true
  · simp [hd]
  · have hd' : w.dis c.id = false := by simpa using hd
    cases hk : c.kind with
    | freeform =>
      simp only [hd', Bool.false_eq_true, if_false, true_and]
      by_cases hn : c.name = t
      · simp only [hn, if_true]
        cases hc : call c (args.map Value.str) w with
        | error f => rfl
        | ok v =>
          obtain ⟨w', x⟩ := v
          cases x with
          | none => rfl
          | some e => cases e <;> rfl
      · simp [hn]
    | variadic ps =>
      simp only [hd', Bool.false_eq_true, if_false, true_and, List.length_cons]
      by_cases hl : args.length = ps.length
      · simp only [hl, ne_eq, not_true_eq_false, if_false]
        by_cases hn : c.name = t
        · simp only [hn, if_true]
          cases hcv : convert p ps args with
          | ok vals =>
            simp only
            cases hc : call c vals w with
            | error f => rfl
            | ok v =>
              obtain ⟨w', x⟩ := v
              cases x with
              | none => rfl
              | some e => cases e <;> rfl
          | error e => cases e with
            | bad => rfl
            | ub u => rfl
            | exn e => cases e <;> rfl
        · simp [hn]
      · have : ¬ (args.length + 1 = ps.length + 1) := by omega
        simp [hl, this]

/-- What the search does with the designation it takes. -/
def take (t : Target) (w : World σ τ) : Res σ τ :=
  match t with
  | .menu [] => .ok (w, .notFound)
  | .menu ((m, _) :: _) => .ok ({ w with current := m.id }, .found)
  | .cmd c args => perform p call c args w

/-- The search `r` in the state `w` with the designations `L`: if all are rejected, nothing is found; otherwise, unless the handler of the
    first one that is not rejected throws `bad_cast`, the result is that of this designation. -/
def Starts (w : World σ τ) (r : Res σ τ) (L : List Cand) : Prop :=
  ((∀ x ∈ L, Rejected p x) → r = .ok (w, .notFound)) ∧
  (∀ pre x post, L = pre ++ x :: post → (∀ y ∈ pre, Rejected p y) → ¬ Rejected p x →
    (∀ w', take p call x.2 w ≠ .ok (w', .notFound)) → r = take p call x.2 w)

theorem starts_nil (w : World σ τ) : Starts p call w (.ok (w, .notFound)) [] := by
  refine ⟨fun _ => rfl, ?_⟩
  intro pre x post h
  simp at h

theorem starts_goOn {w : World σ τ} {r : Res σ τ} {L1 L2 : List Cand} {next : World σ τ → Res σ τ} (h1 : Starts p call w r L1) (h2 : Starts p call w (next w) L2) :
    Starts p call w (goOn w r next) (L1 ++ L2) := by
  have hnext : (∀ x ∈ L1, Rejected p x) → goOn w r next = next w := by
    intro h; rw [h1.1 h]; simp [goOn]
  refine ⟨?_, ?_⟩
  · intro hall
    rw [hnext (fun x hx => hall x (by simp [hx]))]
    exact h2.1 (fun x hx => hall x (by simp [hx]))
  · intro pre x post hL hpre hx htake
    rw [List.append_eq_append_iff] at hL
    rcases hL with ⟨l, hp, hL2⟩ | ⟨l, hL1, hp⟩
    · -- the first part is rejected
      subst hp
      rw [hnext (fun y hy => hpre y (by simp [hy]))]
      exact h2.2 l x post hL2 (fun y hy => hpre y (by simp [hy])) hx htake
    · cases l with
      | nil =>
        simp only [List.nil_append, List.append_nil] at hL1 hp
        rw [hnext (by rw [hL1]; exact hpre)]
        exact h2.2 [] x post hp.symm (by simp) hx htake
      | cons y l =>
        simp only [List.cons_append, List.cons.injEq] at hp
        obtain ⟨rfl, rfl⟩ := hp
        rw [h1.2 pre x l hL1 hpre hx htake]
        cases ht : take p call x.2 w with
        | error f => rfl
        | ok v =>
          obtain ⟨w1, o⟩ := v
          cases o with
          | found => rfl
          | thrown e => rfl
          | notFound => exact absurd ht (htake w1)

theorem starts_map {w : World σ τ} {r : Res σ τ} {L : List Cand} (n : Nat) (h : Starts p call w r L) : Starts p call w r (L.map (fun x => (n :: x.1, x.2))) := by
  have hrej : ∀ x : Cand, Rejected p (n :: x.1, x.2) ↔ Rejected p x := fun x => Iff.rfl
  refine ⟨?_, ?_⟩
  · intro hall
    apply h.1
    intro x hx
    exact (hrej x).1 (hall _ (by simp only [List.mem_map]; exact ⟨x, hx, rfl⟩))
  · intro pre x post hL hpre hx htake
    rw [List.map_eq_append_iff] at hL
    obtain ⟨l1, l2, rfl, rfl, h2⟩ := hL
    rw [List.map_eq_cons_iff] at h2
    obtain ⟨y, l3, rfl, rfl, rfl⟩ := h2
    exact h.2 l1 y l3 rfl (fun z hz => (hrej z).1 (hpre _ (by simp only [List.mem_map]; exact ⟨z, hz, rfl⟩))) hx htake

theorem starts_perform (w : World σ τ) (i : Nat) (c : Cmd) (args : List Str) : Starts p call w (perform p call c args w) [([i], .cmd c args)] := by
  refine ⟨?_, ?_⟩
  · intro hall
    obtain ⟨c', args', h1, h2⟩ := hall _ (List.mem_singleton.2 rfl)
    cases h1
    simp [perform, h2]
  · intro pre x post hL hpre hx htake
    cases pre with
    | nil => simp only [List.nil_append, List.cons.injEq] at hL; rw [← hL.1]; rfl
    | cons y pre => simp at hL

theorem starts_scanEntries (w : World σ τ) (t : Str) (args : List Str) (sub : MenuInfo → Forest → World σ τ → Res σ τ) (csub : MenuInfo → Forest → List Cand)
    (hs : ∀ m k, Starts p call w (sub m k w) (csub m k)) (f : Forest) :
    ∀ i, Starts p call w (scanEntries p call (t :: args) sub f w) (candEntries w.dis (t :: args) csub i f) := by
  induction f with
  | nil => intro i; exact starts_nil p call w
  | cmd c rest ih =>
    intro i
    simp only [scanEntries, candEntries]
    refine starts_goOn p call ?_ (ih (i + 1))
    rw [execCmd_eq]
    split
    · exact starts_perform p call w i c args
    · exact starts_nil p call w
  | menu m kids rest _ ih =>
    intro i
    simp only [scanEntries, candEntries]
    exact starts_goOn p call (starts_map p call i (hs m kids)) (ih (i + 1))

theorem starts_handleCommand (w : World σ τ) (toks : List Str) (ht : toks ≠ []) : ∀ (via : Bool) (path : Path),
    Starts p call w (handleCommand p call toks via path w) (candHandle w.dis toks via path) := by
  induction toks with
  | nil => exact absurd rfl ht
  | cons t rest ih =>
    intro via path
    cases path with
    | nil => exact starts_nil p call w
    | cons mk anc =>
      obtain ⟨m, kids⟩ := mk
      simp only [handleCommand, candHandle]
      by_cases hd : w.dis m.id = true
      · rw [if_pos hd, if_pos hd]; exact starts_nil p call w
      · rw [if_neg hd, if_neg hd]
        by_cases hn : t = m.name ∨ (via = true ∧ t = bs!"..")
        · rw [if_pos hn, if_pos hn]
          by_cases hr : rest = []
          · rw [if_pos hr, if_pos hr]
            refine ⟨?_, ?_⟩
            · intro hall
              obtain ⟨c, args, h1, _⟩ := hall _ (List.mem_singleton.2 rfl)
              cases h1
            · intro pre x post hL hpre hx htake
              cases pre with
              | nil => simp only [List.nil_append, List.cons.injEq] at hL; rw [← hL.1]; rfl
              | cons y pre => simp at hL
          · rw [if_neg hr, if_neg hr]
            cases rest with
            | nil => exact absurd rfl hr
            | cons t' args =>
              exact starts_goOn p call (starts_scanEntries p call w t' args _ _ (fun m' k' => ih hr false _) kids 0) (starts_map p call _ (ih hr true anc))
        · rw [if_neg hn, if_neg hn]; exact starts_nil p call w

theorem starts_scanCmds (w : World σ τ) (toks : List Str) (ht : toks ≠ []) (path : Path) :
    Starts p call w (scanCmds p call toks path w) (cands w.dis toks path) := by
  cases path with
  | nil => exact starts_nil p call w
  | cons mk anc =>
    obtain ⟨m, kids⟩ := mk
    simp only [scanCmds, cands]
    by_cases hd : w.dis m.id = true
    · rw [if_pos hd, if_pos hd]; exact starts_nil p call w
    · rw [if_neg hd, if_neg hd]
      cases toks with
      | nil => exact absurd rfl ht
      | cons t args =>
        refine starts_goOn p call (starts_scanEntries p call w t args _ _ (fun m' k' => starts_handleCommand p call w _ ht false _) kids 0) ?_
        rw [if_neg ht]
        exact starts_map p call _ (starts_handleCommand p call w _ ht true anc)

end

/-! ### What the search preserves -/

section
variable {p : Platform} {call : Cmd → List Value → World σ τ → Except Fault (World σ τ × Option Exn)} {Q : World σ τ → World σ τ → Prop}
  (hc : ∀ c vals w w' x, call c vals w = .ok (w', x) → Q w w' ∧ Steady w w') (hr : ∀ w, Q w w) (ht : ∀ {a b c}, Q a b → Q b c → Q a c)
  (he : ∀ (w : World σ τ) i, i ∈ w.tree.menuIds → Q w { w with current := i })

include hc hr ht he

theorem closed_execCmd (c : Cmd) (toks : List Str) (w w' : World σ τ) (o : Outcome) (h : execCmd p call c toks w = .ok (w', o)) :
    Q w w' ∧ Steady w w' := by
  have h0 : Q w w ∧ Steady w w := ⟨hr w, steady_refl w⟩
  unfold execCmd at h
  split at h
  · cases h; exact h0
  · split at h
    · split at h
      · cases h; exact h0
      · split at h
        · cases h
        · split at h
          · split at h
            · cases h; exact h0
            · cases h; exact h0
            · cases h; exact h0
            · cases h
            · split at h
              · cases h
              all_goals (rename_i hx; cases h; exact hc _ _ _ _ _ hx)
          · cases h; exact h0
    · split at h
      · cases h
      · split at h
        · split at h
          · cases h
          all_goals (rename_i hx; cases h; exact hc _ _ _ _ _ hx)
        · cases h; exact h0

theorem closed_goOn {w w' : World σ τ} {r : Res σ τ} {next : World σ τ → Res σ τ} {o : Outcome} (h : goOn w r next = .ok (w', o))
    (hr1 : ∀ w1 o1, r = .ok (w1, o1) → Q w w1 ∧ Steady w w1)
    (hn : ∀ w1, w1.gen = w.gen → w1.tree = w.tree → next w1 = .ok (w', o) → Q w1 w' ∧ Steady w1 w') : Q w w' ∧ Steady w w' := by
  unfold goOn at h
  split at h
  · rename_i w1
    obtain ⟨h1, h2⟩ := hr1 w1 _ rfl
    split at h
    · rename_i hg
      obtain ⟨h3, h4⟩ := hn w1 hg (h2.2 hg) h
      exact ⟨ht h1 h3, steady_trans h2 h4⟩
    · cases h
  · exact hr1 _ _ h

theorem closed_scanEntries (toks : List Str) (sub : MenuInfo → Forest → World σ τ → Res σ τ) (t : Tree)
    (f : Forest) (hf : ∀ i ∈ f.menuIds, i ∈ t.menuIds)
    (hs : ∀ m k w w' o, m.id ∈ t.menuIds → (∀ i ∈ k.menuIds, i ∈ t.menuIds) → w.tree = t → sub m k w = .ok (w', o) → Q w w' ∧ Steady w w') :
    ∀ w w' o, w.tree = t → scanEntries p call toks sub f w = .ok (w', o) → Q w w' ∧ Steady w w' := by
  induction f with
  | nil => intro w w' o _ h; cases h; exact ⟨hr w, steady_refl w⟩
  | cmd c rest ih =>
    intro w w' o htt h
    simp only [scanEntries] at h
    refine closed_goOn hc hr ht he h (fun w1 o1 h1 => closed_execCmd hc hr ht he c toks w w1 o1 h1) ?_
    intro w1 _ ht1 h1
    exact ih (by simpa [Forest.menuIds] using hf) w1 w' o (ht1.trans htt) h1
  | menu m k rest _ ih =>
    intro w w' o htt h
    simp only [scanEntries] at h
    simp only [Forest.menuIds, List.mem_cons, List.mem_append] at hf
    refine closed_goOn hc hr ht he h (fun w1 o1 h1 => hs m k w w1 o1 (hf _ (.inl rfl)) (fun i hi => hf i (.inr (.inl hi))) htt h1) ?_
    intro w1 _ ht1 h1
    exact ih (fun i hi => hf i (.inr (.inr hi))) w1 w' o (ht1.trans htt) h1

theorem closed_handle (toks : List Str) : ∀ (via : Bool) (path : Path) (w w' : World σ τ) (o : Outcome), Exist w path →
    handleCommand p call toks via path w = .ok (w', o) → Q w w' ∧ Steady w w' := by
  induction toks with
  | nil =>
    intro via path w w' o _ h
    cases path with
    | nil => cases h; exact ⟨hr w, steady_refl w⟩
    | cons mk anc =>
      obtain ⟨m, k⟩ := mk
      simp only [handleCommand] at h
      split at h
      · cases h; exact ⟨hr w, steady_refl w⟩
      · cases h
  | cons t rest ih =>
    intro via path w w' o hex h
    cases path with
    | nil => simp only [handleCommand] at h; cases h; exact ⟨hr w, steady_refl w⟩
    | cons mk anc =>
      obtain ⟨m, k⟩ := mk
      simp only [handleCommand] at h
      split at h
      · cases h; exact ⟨hr w, steady_refl w⟩
      · split at h
        · split at h
          · cases h
            exact ⟨he w _ (hex m k (by simp)).1, ⟨Nat.le_refl _, fun _ => rfl⟩⟩
          · refine closed_goOn hc hr ht he h ?_ ?_
            · intro w1 o1 h1
              refine closed_scanEntries hc hr ht he rest _ w.tree k (hex m k (by simp)).2 ?_ w w1 o1 rfl h1
              intro m' k' w2 w3 o2 hm' hk' htt h2
              refine ih false _ w2 w3 o2 ?_ h2
              intro m2 k2 hmem
              rw [htt]
              rcases List.mem_cons.1 hmem with hee | hmem
              · cases hee; exact ⟨hm', hk'⟩
              · exact hex m2 k2 hmem
            · intro w1 _ ht1 h1
              refine ih true anc w1 w' o ?_ h1
              intro m2 k2 hmem
              rw [ht1]
              exact hex m2 k2 (List.mem_cons_of_mem _ hmem)
        · cases h; exact ⟨hr w, steady_refl w⟩

theorem closed_scanCmds (toks : List Str) (path : Path) (w w' : World σ τ) (o : Outcome) (hex : Exist w path)
    (h : scanCmds p call toks path w = .ok (w', o)) : Q w w' ∧ Steady w w' := by
  cases path with
  | nil => cases h; exact ⟨hr w, steady_refl w⟩
  | cons mk anc =>
    obtain ⟨m, k⟩ := mk
    simp only [scanCmds] at h
    split at h
    · cases h; exact ⟨hr w, steady_refl w⟩
    · refine closed_goOn hc hr ht he h ?_ ?_
      · intro w1 o1 h1
        refine closed_scanEntries hc hr ht he toks _ w.tree k (hex m k (by simp)).2 ?_ w w1 o1 rfl h1
        intro m' k' w2 w3 o2 hm' hk' htt h2
        refine closed_handle hc hr ht he toks false _ w2 w3 o2 ?_ h2
        intro m2 k2 hmem
        rw [htt]
        rcases List.mem_cons.1 hmem with hee | hmem
        · cases hee; exact ⟨hm', hk'⟩
        · exact hex m2 k2 hmem
      · intro w1 _ ht1 h1
        split at h1
        · cases h1
        · refine closed_handle hc hr ht he toks true anc w1 w' o ?_ h1
          intro m2 k2 hmem
          rw [ht1]
          exact hex m2 k2 (List.mem_cons_of_mem _ hmem)

theorem closed_scanCurrent (toks : List Str) (w w' : World σ τ) (o : Outcome) (h : scanCurrent p call toks w = .ok (w', o)) : Q w w' := by
  unfold scanCurrent at h
  split at h
  · cases h
  · rename_i path hp
    exact (closed_scanCmds hc hr ht he toks path w w' o (locate_exist hp) h).1

end

/-! ### `Feed` in parts -/

section
variable (R : RApp σ τ)

/-- The part of `Feed` after the built-in commands. -/
def userPart (fd : Feeder σ τ) (line : Str) (toks : List Str) (w : World σ τ) : Res σ τ :=
  match scanCurrent R.base.plat (callProg R fd) toks w with
  | .ok (w, .notFound) =>
    match wrongCommand R.base line w with
    | (w, none) => .ok (w, .found)
    | (w, some e) => .ok (w, .thrown e)
  | r => r

/-- What happens after a line has been split and recorded. -/
def body (fd : Feeder σ τ) (line : Str) (toks : List Str) (w : World σ τ) : Res σ τ :=
  match scanGlobal R.base fd toks w with
  | .ok (w, .notFound) => userPart R fd line toks w
  | r => r

theorem feed_eq {line : Str} {toks : List Str} (hl : Lex.Line line toks) (ht : toks ≠ []) (fuel : Nat) (w : World σ τ) :
    feed R (fuel + 1) line w =
      match History.newCommand w.hist line with
      | .error f => .error f
      | .ok h => catchAll R.base line (body R (feed R fuel) line toks (w.entered h)) := by
  simp only [feed, (split_iff _ _).2 hl, bind, Except.bind, ht, if_false]
  cases History.newCommand w.hist line with
  | error f => rfl
  | ok h => rfl

theorem feed_blank {line : Str} (hl : Lex.Line line []) (fuel : Nat) (w : World σ τ) : feed R (fuel + 1) line w = .ok (w, none) := by
  simp [feed, (split_iff _ _).2 hl, bind, Except.bind]

theorem feed_user {line : Str} {toks : List Str} (hl : Lex.Line line toks) (ht : UserLine R.base.plat toks) (fuel : Nat) (w : World σ τ) {h : History.History}
    (hh : History.newCommand w.hist line = .ok h) :
    feed R (fuel + 1) line w = catchAll R.base line (userPart R (feed R fuel) line toks (w.entered h)) := by
  rw [feed_eq R hl ht.nonempty, hh]
  simp only [body, scanGlobal_user R.base _ ht]

end

/-! ### What `Feed` preserves -/

theorem Prog.uses_true (q : Prog σ) : q.Uses (fun _ => True) (fun _ => True) := by
  induction q with
  | ret => trivial
  | get k ih => exact ih
  | set s k ih => exact ih
  | act a k ih => exact ⟨trivial, ih⟩
  | touch k ih => exact ih
  | call m k ih => exact ⟨fun _ _ => trivial, ih⟩

/-- The relation holds between the states before and after each of the things that feeding a line consists of. -/
structure Framed (R : RApp σ τ) (OK : Act → Prop) (P : Id → Prop) (Q : World σ τ → World σ τ → Prop) : Prop where
  closed : Closed R.base Q
  hist : ∀ (w : World σ τ) h, Q w { w with hist := h }
  act : ∀ (w : World σ τ) a, OK a → Q w (w.act a)
  set : ∀ (w : World σ τ) s, Q w { w with app := s }
  goto : ∀ (w : World σ τ) i, P i → Q w { w with current := i }
  io : ∀ (w : World σ τ) i, Q w { w with io := i }
  ran : ∀ (w : World σ τ) c args s x, Q w (w.note (.ran c args s x))

section
variable {R : RApp σ τ} {OK : Act → Prop} {P : Id → Prop} {Q : World σ τ → World σ τ → Prop}

theorem prompt_io {w w' : World σ τ} (h : Verif.prompt w = .ok w') : ∃ i, w' = { w with io := i } := by
  unfold Verif.prompt at h
  split at h
  · cases h; exact ⟨w.io, rfl⟩
  · split at h
    · cases h; exact ⟨_, rfl⟩
    · cases h

theorem help_io {w w' : World σ τ} (h : helpCmd w = .ok w') : ∃ i, w' = { w with io := i } := by
  unfold helpCmd at h
  split at h
  · cases h
  · cases h; exact ⟨_, rfl⟩

theorem framed_method (F : Framed R OK P Q) (fd : Feeder σ τ) (hf : ∀ line w w' x, fd line w = .ok (w', x) → Q w w') (m : Method)
    (hm : ∀ i, m = .goto i → P i) (w w' : World σ τ) (x : Option Exn) (h : method R fd m w = .ok (w', x)) : Q w w' := by
  cases m with
  | feed line => exact hf _ _ _ _ h
  | exit => exact closed_exit F.closed _ _ _ h
  | prompt =>
    simp only [method] at h
    cases hp : Verif.prompt w with
    | error f => rw [hp] at h; cases h
    | ok w1 => rw [hp] at h; cases h; obtain ⟨i, rfl⟩ := prompt_io hp; exact F.io _ _
  | help =>
    simp only [method] at h
    cases hp : helpCmd w with
    | error f => rw [hp] at h; cases h
    | ok w1 => rw [hp] at h; cases h; obtain ⟨i, rfl⟩ := help_io hp; exact F.io _ _
  | history =>
    simp only [method] at h
    split at h <;> cases h
    · exact F.io _ _
    · exact F.closed.refl _
  | again n =>
    simp only [method] at h
    split at h
    · cases h
    · split at h
      · cases h
      · cases h; exact F.hist _ _
      · exact F.closed.trans (F.hist _ _) (hf _ _ _ _ h)
  | goto i => cases h; exact F.goto _ _ (hm i rfl)

theorem framed_run (F : Framed R OK P Q) (fd : Feeder σ τ) (hf : ∀ line w w' x, fd line w = .ok (w', x) → Q w w') (c : Cmd) (q : Prog σ) :
    q.Uses OK P → ∀ (w w' : World σ τ) (x : Option Exn), run R fd c q w = .ok (w', x) → Q w w' := by
  induction q with
  | ret x => intro _ w w' x h; cases h; exact F.closed.refl _
  | get k ih => intro hu w w' x h; exact ih _ (hu _) _ _ _ h
  | set s k ih => intro hu w w' x h; exact F.closed.trans (F.set w s) (ih hu _ _ _ h)
  | act a k ih => intro hu w w' x h; exact F.closed.trans (F.act w a hu.1) (ih hu.2 _ _ _ h)
  | touch k ih =>
    intro hu w w' x h
    simp only [run] at h
    split at h
    · exact ih hu _ _ _ h
    · cases h
  | call m k ih =>
    intro hu w w' x h
    simp only [run] at h
    split at h
    · cases h
    · rename_i he
      exact F.closed.trans (framed_method F fd hf m hu.1 _ _ _ he) (ih _ (hu.2 _) _ _ _ h)

theorem framed_feed (F : Framed R OK P fun w w' => Q w w' ∧ Steady w w') (hu : ∀ fn args, (R.prog fn args).Uses OK P) (fuel : Nat) :
    ∀ (line : Str) (w w' : World σ τ) (x : Option Exn), feed R fuel line w = .ok (w', x) → Q w w' ∧ Steady w w' := by
  induction fuel with
  | zero => intro line w w' x h; cases h
  | succ fuel ih =>
    intro line w w' x h
    have C := F.closed
    obtain ⟨toks, hl⟩ := line_exists line
    by_cases ht : toks = []
    · subst ht; rw [feed_blank R hl] at h; cases h; exact C.refl _
    · rw [feed_eq R hl ht] at h
      split at h
      · cases h
      · rename_i h1 hh
        have q0 := F.hist w h1
        have hglob : ∀ w2 o, scanGlobal R.base (feed R fuel) toks (w.entered h1) = .ok (w2, o) → Q w w2 ∧ Steady w w2 := by
          intro w2 o hs
          rcases scanGlobal_cases R.base (feed R fuel) toks ht (w.entered h1) with ⟨_, hg⟩ | ⟨_, hg, _⟩ | ⟨_, hg⟩ | ⟨_, hg⟩ | ⟨_, hg⟩ | ⟨arg, n, _, _, _, hg⟩ <;> rw [hg] at hs
          · cases hs; exact q0
          · cases hs
          · unfold helpPart at hs
            split at hs
            · cases hs
            · rename_i he
              cases hs
              obtain ⟨i, rfl⟩ := help_io he
              exact C.trans q0 (C.trans (C.note _ (.builtin .help) rfl) (F.io _ _))
          · unfold exitPart at hs
            split at hs
            · cases hs
            · rename_i he
              cases hs
              exact C.trans q0 (C.trans (C.note _ (.builtin .exit) rfl) (closed_exit C _ _ _ he))
          · cases hs
            exact C.trans q0 (C.trans (C.note _ (.builtin .history) rfl) (C.put _ _))
          · unfold bangPart at hs
            split at hs
            · cases hs
            · rename_i h2 _
              have q1 : Q w { (w.entered h1).note (.builtin (.bang n)) with hist := h2 } ∧ Steady w { (w.entered h1).note (.builtin (.bang n)) with hist := h2 } :=
                C.trans q0 (C.trans (C.note _ (.builtin (.bang n)) rfl) (F.hist _ h2))
              split at hs
              · cases hs
              · cases hs; exact q1
              · split at hs
                · cases hs
                · rename_i he
                  cases hs
                  exact C.trans q1 (ih _ _ _ _ he)
        have hcall : ∀ c vals w w' x, callProg R (feed R fuel) c vals w = .ok (w', x) → (Q w w' ∧ Steady w w') ∧ Steady w w' := by
          intro c vals w w' x hc
          unfold callProg at hc
          split at hc
          · cases hc
          · rename_i he
            cases hc
            have := C.trans (framed_run F (feed R fuel) ih c _ (hu _ _) _ _ _ he) (F.ran _ c vals w.snap x)
            exact ⟨this, this.2⟩
        unfold body at h
        cases hs : scanGlobal R.base (feed R fuel) toks (w.entered h1) with
        | error f => rw [hs] at h; cases h
        | ok v =>
          obtain ⟨w2, o⟩ := v
          have h2 := hglob w2 o hs
          rw [hs] at h
          by_cases ho : o = .notFound
          · subst ho
            simp only at h
            cases hu : userPart R (feed R fuel) line toks w2 with
            | error f => rw [hu] at h; cases h
            | ok v =>
              obtain ⟨w3, o3⟩ := v
              rw [hu] at h
              refine C.trans h2 (C.trans (b := w3) ?_ (closed_catchAll C.core line _ _ _ _ h))
              unfold userPart at hu
              cases hsc : scanCurrent R.base.plat (callProg R (feed R fuel)) toks w2 with
              | error f => rw [hsc] at hu; cases hu
              | ok v =>
                obtain ⟨w4, o4⟩ := v
                have h4 := closed_scanCurrent (Q := fun w w' => Q w w' ∧ Steady w w') hcall C.refl C.trans C.enter toks _ _ _ hsc
                rw [hsc] at hu
                have h5 := closed_wrong C.core line w4
                cases o4 with
                | found => cases hu; exact h4
                | thrown e => cases hu; exact h4
                | notFound =>
                  simp only at hu
                  cases hw : wrongCommand R.base line w4 with
                  | mk w5 x5 =>
                    rw [hw] at hu h5
                    cases x5 <;> (cases hu; exact C.trans h4 h5)
          · replace h : catchAll R.base line (.ok (w2, o)) = .ok (w', x) := by
              cases o with
              | notFound => exact absurd rfl ho
              | found => exact h
              | thrown e => exact h
            exact C.trans h2 (closed_catchAll C.core line _ _ _ _ h)

end

theorem framed_steady {R : RApp σ τ} {OK : Act → Prop} {P : Id → Prop} {Q : World σ τ → World σ τ → Prop} (F : Framed R OK P Q) :
    Framed R OK P fun w w' => Q w w' ∧ Steady w w' := by
  have hs : ∀ (w : World σ τ) (e : Effect σ), Steady w (w.effect e) := fun w e => ⟨(effect_same w e).2.2.1, (effect_same w e).2.2.2⟩
  have h0 : ∀ {w w' : World σ τ}, w'.gen = w.gen → w'.tree = w.tree → Steady w w' := fun h1 h2 => ⟨by omega, fun _ => h2⟩
  have C := F.closed
  exact
    { closed :=
        { refl := fun w => ⟨C.refl w, steady_refl w⟩
          trans := fun h1 h2 => ⟨C.trans h1.1 h2.1, steady_trans h1.2 h2.2⟩
          handler := fun c vals w => ⟨C.handler c vals w, hs w _⟩
          note := fun w e he => ⟨C.note w e he, h0 rfl rfl⟩
          put := fun w s => ⟨C.put w s, h0 rfl rfl⟩
          exception := fun f hf w l e => ⟨C.exception f hf w l e, hs w _⟩
          wrong := fun f hf w l => ⟨C.wrong f hf w l, hs w _⟩
          exitSession := fun f hf w => ⟨C.exitSession f hf w, hs w _⟩
          exitGlobal := fun f hf w => ⟨C.exitGlobal f hf w, hs w _⟩
          enterSession := fun f hf w => ⟨C.enterSession f hf w, hs w _⟩
          enterGlobal := fun f hf w => ⟨C.enterGlobal f hf w, hs w _⟩
          enter := fun w i hi => ⟨C.enter w i hi, h0 rfl rfl⟩
          saved := fun w cmds st => ⟨C.saved w cmds st, h0 rfl rfl⟩
          unsaved := fun w st => ⟨C.unsaved w st, h0 rfl rfl⟩ }
      hist := fun w h => ⟨F.hist w h, h0 rfl rfl⟩
      act := fun w a ha => ⟨F.act w a ha, (act_same w a).2.2.1, (act_same w a).2.2.2⟩
      set := fun w s => ⟨F.set w s, h0 rfl rfl⟩
      goto := fun w i hi => ⟨F.goto w i hi, h0 rfl rfl⟩
      io := fun w i => ⟨F.io w i, h0 rfl rfl⟩
      ran := fun w c args s x => ⟨F.ran w c args s x, h0 rfl rfl⟩ }

/-- What is preserved by all that a line may do is preserved by `Feed`. -/
theorem frame {R : RApp σ τ} {OK : Act → Prop} {P : Id → Prop} {Q : World σ τ → World σ τ → Prop} (F : Framed R OK P Q)
    (hu : ∀ fn args, (R.prog fn args).Uses OK P) {fuel : Nat} {line : Str} {w w' : World σ τ} {x : Option Exn} (h : feed R fuel line w = .ok (w', x)) : Q w w' :=
  (framed_feed (framed_steady F) hu fuel line w w' x h).1

/-- A relation that concerns neither the log nor the history nor the output. -/
theorem framed_of {R : RApp σ τ} {OK : Act → Prop} {P : Id → Prop} {Q : World σ τ → World σ τ → Prop} (hA : R.base.Only OK)
    (refl : ∀ w, Q w w) (trans : ∀ {a b c}, Q a b → Q b c → Q a c)
    (set : ∀ (w : World σ τ) s, Q w { w with app := s }) (act : ∀ w a, OK a → Q w (w.act a)) (note : ∀ w e, Q w (w.note e))
    (io : ∀ (w : World σ τ) i, Q w { w with io := i }) (hist : ∀ (w : World σ τ) h, Q w { w with hist := h })
    (enter : ∀ (w : World σ τ) i, i ∈ w.tree.menuIds → Q w { w with current := i }) (goto : ∀ (w : World σ τ) i, P i → Q w { w with current := i })
    (saved : ∀ (w : World σ τ) st, Q w { w with storage := st, exit := true }) (unsaved : ∀ (w : World σ τ) st, Q w { w with storage := st }) : Framed R OK P Q := by
  have eff : ∀ (w : World σ τ) (e : Effect σ), (∀ a ∈ e.acts, OK a) → Q w (w.effect e) := by
    intro w e he
    have key : ∀ (as : List Act) (u : World σ τ), (∀ a ∈ as, OK a) → Q u (as.foldl World.act u) := by
      intro as
      induction as with
      | nil => intro u _; exact refl u
      | cons a as ih => intro u h; exact trans (act u a (h a (by simp))) (ih _ (fun b hb => h b (by simp [hb])))
    exact trans (set w e.app) (key e.acts _ he)
  exact
    { closed :=
        { refl := refl
          trans := trans
          handler := fun c vals w => trans (eff w _ (hA.handler _ _ _)) (note _ _)
          note := fun w e _ => note w e
          put := fun w s => io w _
          exception := fun f hf w _ _ => eff w _ (hA.exception f hf _ _ _)
          wrong := fun f hf w _ => eff w _ (hA.wrong f hf _ _)
          exitSession := fun f hf w => eff w _ (hA.exitSession f hf _)
          exitGlobal := fun f hf w => eff w _ (hA.exitGlobal f hf _)
          enterSession := fun f hf w => eff w _ (hA.enterSession f hf _)
          enterGlobal := fun f hf w => eff w _ (hA.enterGlobal f hf _)
          enter := enter
          saved := fun w cmds st => trans (note w (.saved cmds)) (saved _ st)
          unsaved := unsaved }
      hist, act, set, goto, io
      ran := fun w _ _ _ _ => note w _ }

/-! ### Which command is executed -/

section
variable (p : Platform) (call : Cmd → List Value → World σ τ → Except Fault (World σ τ × Option Exn))

/-- The search in the current menu, if no function of a command that the line designates throws `bad_cast`. -/
theorem scanCurrent_cases (toks : List Str) (ht : toks ≠ []) (w : World σ τ) {path : Path} (hp : w.tree.locate w.current = some path)
    (hb : ∀ c args, DesignatesCmd w.dis path toks c args → ∀ vals w' what, call c vals w ≠ .ok (w', some (.badCast what))) :
    scanCurrent p call toks w = .ok (w, .notFound) ∨
    (∃ m k q, DesignatesMenu w.dis path toks ((m, k) :: q) ∧ scanCurrent p call toks w = .ok ({ w with current := m.id }, .found)) ∨
    (∃ e, scanCurrent p call toks w = .ok (w, .thrown e)) ∨
    (∃ c args vals, DesignatesCmd w.dis path toks c args ∧ Accepts p c args vals ∧ scanCurrent p call toks w = ended c.kind (call c vals w)) ∨
    (∃ f, ConvFault f ∧ scanCurrent p call toks w = .error f) := by
  have hs : scanCurrent p call toks w = scanCmds p call toks path w := by simp only [scanCurrent, hp]
  rw [hs]
  have hst := starts_scanCmds p call w toks ht path
  rcases first_or_none p (cands w.dis toks path) with h1 | ⟨pre, x, post, h1, h2, h3⟩
  · exact .inl (hst.1 h1)
  · have hx : x ∈ cands w.dis toks path := by rw [h1]; simp
    have h4 := hst.2 pre x post h1 h2 h3
    obtain ⟨cs, x⟩ := x
    cases x with
    | menu q =>
      cases q with
      | nil =>
        have := (mem_cands _ _ _ _).1 hx
        exact absurd rfl (walk_ne_nil (des_walk this.2).2 (enabled_ne_nil this.1))
      | cons mk q =>
        refine .inr (.inl ⟨mk.1, mk.2, q, (designatesMenu_iff _ _ _ _).2 ⟨cs, hx⟩, ?_⟩)
        rw [h4 (by simp [take])]; rfl
    | cmd c args =>
      simp only [take] at h4
      have hd := (designatesCmd_iff _ _ _ _ _).2 ⟨cs, hx⟩
      cases hv : verdict p c args with
      | reject => exact absurd ⟨c, args, rfl, hv⟩ h3
      | raise e => exact .inr (.inr (.inl ⟨e, by rw [h4 (by simp [perform, hv])]; simp [perform, hv]⟩))
      | crash u => exact .inr (.inr (.inr (.inr ⟨.ub u, verdict_crash _ _ _ _ hv, by rw [h4 (by simp [perform, hv])]; simp [perform, hv]⟩)))
      | run vals =>
        have ha := (verdict_run p c args vals).1 hv
        have hpf : perform p call c args w = ended c.kind (call c vals w) := by simp only [perform, hv]
        refine .inr (.inr (.inr (.inl ⟨c, args, vals, hd, ha, ?_⟩)))
        rw [h4, hpf]
        intro w'
        rw [hpf]
        cases hc : call c vals w with
        | error f => simp [ended]
        | ok v =>
          obtain ⟨w1, y⟩ := v
          cases y with
          | none => simp [ended]
          | some e =>
            cases e with
            | badCast what => exact absurd hc (hb c args hd vals w1 what)
            | std s => simp [ended]
            | other => simp [ended]

/-- What the search does, in terms of the specification. -/
theorem search_chosen (w : World σ τ) (toks : List Str) (ht : toks ≠ []) (path : Path) (hc : CleanLine p w.dis path toks) (x : Target)
    (hx : Chosen p w.dis path toks x) (hn : ∀ w', take p call x w ≠ .ok (w', .notFound)) : scanCmds p call toks path w = take p call x w := by
  have hst := starts_scanCmds p call w toks ht path
  rcases first_or_none p (cands w.dis toks path) with h1 | ⟨pre, y, post, h1, h2, h3⟩
  · obtain ⟨he, cs, hd, hr, _⟩ := hx
    exact absurd (rejected_refused (h1 (cs, x) ((mem_cands _ _ _ _).2 ⟨he, hd⟩))) hr
  · have hy : y ∈ cands w.dis toks path := by rw [h1]; simp
    obtain ⟨he, hdes⟩ := (mem_cands _ _ _ _).1 hy
    have hch : Chosen p w.dis path toks y.2 := by
      refine ⟨he, y.1, hdes, fun hr => h3 (refused_rejected hc hy hr), ?_⟩
      intro cs' x' hd' hlex
      have hx' : (cs', x') ∈ cands w.dis toks path := (mem_cands _ _ _ _).2 ⟨he, hd'⟩
      have hs := sorted_cands w.dis toks path
      rw [h1] at hx' hs
      rw [List.mem_append, List.mem_cons] at hx'
      rw [List.pairwise_append, List.pairwise_cons] at hs
      rcases hx' with hx' | hx' | hx'
      · exact rejected_refused (h2 _ hx')
      · subst hx'; exact absurd hlex (lex_irrefl _)
      · exact absurd (lex_trans hlex (hs.2.1.1 _ hx')) (lex_irrefl _)
    cases chosen_unique hx hch
    exact hst.2 pre y post h1 h2 h3 hn

end

/-- The command that a line designates is called. -/
theorem feed_chosen (R : RApp σ τ) {line : Str} {toks : List Str} (hl : Lex.Line line toks) (ht : UserLine R.base.plat toks) (fuel : Nat)
    (w : World σ τ) {h : History.History} (hh : History.newCommand w.hist line = .ok h) {path : Path} (hp : w.tree.locate w.current = some path)
    (hc : CleanLine R.base.plat w.dis path toks) {c : Cmd} {args : List Str} {vals : List Value} (hx : Chosen R.base.plat w.dis path toks (.cmd c args))
    (ha : Accepts R.base.plat c args vals)
    (hb : ∀ w' x, run R (feed R fuel) c (R.prog c.fn vals) (w.entered h) = .ok (w', x) → ¬ c.Swallows x) :
    feed R (fuel + 1) line w = match run R (feed R fuel) c (R.prog c.fn vals) (w.entered h) with
      | .error f => .error f
      | .ok (w', x) => .ok (afterHandler R.base line x (w'.note (.ran c vals w.snap x))) := by
  rw [feed_user R hl ht fuel w hh]
  have hv := (verdict_run R.base.plat c args vals).2 ha
  have hpf : take R.base.plat (callProg R (feed R fuel)) (.cmd c args) (w.entered h) = ended c.kind (callProg R (feed R fuel) c vals (w.entered h)) := by
    simp only [take, perform, hv]
  have hcall : callProg R (feed R fuel) c vals (w.entered h) = match run R (feed R fuel) c (R.prog c.fn vals) (w.entered h) with
      | .error f => .error f
      | .ok (w', x) => .ok (w'.note (.ran c vals w.snap x), x) := rfl
  have hsc : scanCurrent R.base.plat (callProg R (feed R fuel)) toks (w.entered h) = scanCmds R.base.plat (callProg R (feed R fuel)) toks path (w.entered h) := by
    have hp' : (w.entered h).tree.locate (w.entered h).current = some path := hp
    simp only [scanCurrent, hp']
  have hne : ∀ w', take R.base.plat (callProg R (feed R fuel)) (.cmd c args) (w.entered h) ≠ .ok (w', .notFound) := by
    intro w'
    rw [hpf, hcall]
    cases hr : run R (feed R fuel) c (R.prog c.fn vals) (w.entered h) with
    | error f => simp [ended]
    | ok v =>
      obtain ⟨w1, x⟩ := v
      have := hb w1 x hr
      cases x with
      | none => simp [ended]
      | some e =>
        cases e with
        | badCast s =>
          cases hk : c.kind with
          | freeform => simp [ended]
          | variadic ps => exact absurd ⟨by simp [hk], s, rfl⟩ this
        | std s => simp [ended]
        | other => simp [ended]
  unfold userPart
  rw [hsc, search_chosen _ _ (w.entered h) toks ht.nonempty path hc _ hx hne, hpf, hcall]
  rw [hpf, hcall] at hne
  cases hr : run R (feed R fuel) c (R.prog c.fn vals) (w.entered h) with
  | error f => simp [ended, catchAll]
  | ok v =>
    obtain ⟨w1, x⟩ := v
    have := hb w1 x hr
    rw [hr] at hne
    cases x with
    | none => rfl
    | some e =>
      cases e with
      | badCast s =>
        cases hk : c.kind with
        | freeform => rfl
        | variadic ps => exact absurd ⟨by simp [hk], s, rfl⟩ this
      | std s => rfl
      | other => rfl

/-! ### Functions that do not use the session -/

section
variable (A : App σ τ)

theorem run_acts (R : RApp σ τ) (fd : Feeder σ τ) (c : Cmd) (x : Option Exn) (as : List Act) : ∀ w : World σ τ,
    run R fd c (as.foldr .act (.ret x)) w = .ok (as.foldl World.act w, x) := by
  induction as with
  | nil => intro w; rfl
  | cons a as ih => intro w; exact ih _

theorem callProg_ofApp (fd : Feeder σ τ) (c : Cmd) (vals : List Value) (w : World σ τ) : callProg (ofApp A) fd c vals w = .ok (callHandler A c vals w) := by
  have : run (ofApp A) fd c ((ofApp A).prog c.fn vals) w = .ok (w.effect (A.handler c.fn w.app vals), (A.handler c.fn w.app vals).exn) :=
    run_acts (ofApp A) fd c _ _ _
  simp only [callProg, this, callHandler]

variable (call : Cmd → List Value → World σ τ → Except Fault (World σ τ × Option Exn)) (hc : ∀ c vals w, call c vals w = .ok (callHandler A c vals w))
include hc

theorem execCmd_same (c : Cmd) (toks : List Str) (w : World σ τ) : execCmd A.plat call c toks w = Verif.execCmd A c toks w := by
  cases toks with
  | nil =>
    unfold execCmd Verif.execCmd
    cases c.kind <;> rfl
  | cons t args =>
    rw [execCmd_eq, Verif.execCmd_eq]
    have : perform A.plat call c args w = Verif.perform A c args w := by
      unfold perform Verif.perform
      cases verdict A.plat c args with
      | reject => rfl
      | raise e => rfl
      | crash u => rfl
      | run vals =>
        simp only [hc]
        cases callHandler A c vals w with
        | mk w1 x => cases x with
          | none => rfl
          | some e => cases e <;> cases c.kind <;> rfl
    rw [this]

theorem scanEntries_same (toks : List Str) (sub sub' : MenuInfo → Forest → World σ τ → Res σ τ) (hs : ∀ m k w, sub m k w = sub' m k w) (f : Forest) :
    ∀ w, scanEntries A.plat call toks sub f w = Verif.scanEntries A toks sub' f w := by
  induction f with
  | nil => intro w; rfl
  | cmd c rest ih =>
    intro w
    simp only [scanEntries, Verif.scanEntries, execCmd_same A call hc]
    exact congrArg _ (funext ih)
  | menu m k rest _ ih =>
    intro w
    simp only [scanEntries, Verif.scanEntries, hs]
    exact congrArg _ (funext ih)

theorem handleCommand_same (toks : List Str) : ∀ (via : Bool) (path : Path) (w : World σ τ), handleCommand A.plat call toks via path w = Verif.handleCommand A toks via path w := by
  induction toks with
  | nil => intro via path w; cases path <;> rfl
  | cons t rest ih =>
    intro via path w
    cases path with
    | nil => rfl
    | cons mk anc =>
      obtain ⟨m, k⟩ := mk
      simp only [handleCommand, Verif.handleCommand]
      have h1 : ∀ w, scanEntries A.plat call rest (fun m' kids' w => handleCommand A.plat call rest false ((m', kids') :: (m, k) :: anc) w) k w =
          Verif.scanEntries A rest (fun m' kids' w => Verif.handleCommand A rest false ((m', kids') :: (m, k) :: anc) w) k w :=
        scanEntries_same A call hc rest _ _ (fun m' k' w => ih false _ w) k
      have h2 : (fun w => handleCommand A.plat call rest true anc w) = fun w => Verif.handleCommand A rest true anc w := funext fun w => ih true anc w
      rw [h1, h2]

theorem scanCmds_same (toks : List Str) (path : Path) (w : World σ τ) : scanCmds A.plat call toks path w = Verif.scanCmds A toks path w := by
  cases path with
  | nil => rfl
  | cons mk anc =>
    obtain ⟨m, k⟩ := mk
    simp only [scanCmds, Verif.scanCmds]
    have h1 : ∀ w, scanEntries A.plat call toks (fun m' kids' w => handleCommand A.plat call toks false ((m', kids') :: (m, k) :: anc) w) k w =
        Verif.scanEntries A toks (fun m' kids' w => Verif.handleCommand A toks false ((m', kids') :: (m, k) :: anc) w) k w :=
      scanEntries_same A call hc toks _ _ (fun m' k' w => handleCommand_same A call hc toks false _ w) k
    have h2 : handleCommand A.plat call toks true anc = Verif.handleCommand A toks true anc := funext fun w => handleCommand_same A call hc toks true anc w
    rw [h1, h2]

theorem scanCurrent_same (toks : List Str) (w : World σ τ) : scanCurrent A.plat call toks w = Verif.scanCurrent A toks w := by
  unfold scanCurrent Verif.scanCurrent
  split <;> rename_i h
  · rw [h]
  · rw [h]; exact scanCmds_same A call hc _ _ _

omit hc in
theorem feed_same (fuel : Nat) : feed (ofApp A) fuel = Verif.feed A fuel := by
  induction fuel with
  | zero => rfl
  | succ fuel ih =>
    funext line w
    have h1 : ∀ toks w, scanCurrent (ofApp A).base.plat (callProg (ofApp A) (feed (ofApp A) fuel)) toks w = Verif.scanCurrent A toks w :=
      scanCurrent_same A _ (callProg_ofApp A _)
    rw [ih] at h1
    have h2 : ∀ fd toks (w : World σ τ), scanGlobal (ofApp A).base fd toks w = scanGlobal A fd toks w := fun _ _ _ => rfl
    have h3 : ∀ line r, catchAll (ofApp A).base line r = catchAll A line r := fun _ _ => rfl
    have h4 : ∀ line (w : World σ τ), wrongCommand (ofApp A).base line w = wrongCommand A line w := fun _ _ => rfl
    simp only [feed, Verif.feed, h1, h2, h3, h4, ih]
    rfl

end

/-! ### What exists -/

/-- All menus and commands of the path exist. -/
def Within (t : Tree) (path : Path) : Prop := ∀ m k, (m, k) ∈ path → m.id ∈ t.menuIds ∧ (∀ i ∈ k.menuIds, i ∈ t.menuIds) ∧ ∀ i ∈ k.ids, i ∈ t.ids

theorem within_forest (id : Id) (t : Tree) : ∀ (f : Forest) (anc p : Path), (∀ i ∈ f.menuIds, i ∈ t.menuIds) → (∀ i ∈ f.ids, i ∈ t.ids) →
    Within t anc → f.locate id anc = some p → Within t p := by
  intro f
  induction f with
  | nil => intro anc p _ _ _ h; cases h
  | cmd c rest ih => intro anc p hf hi ha h; exact ih anc p (by simpa [Forest.menuIds] using hf) (fun i h => hi i (by simp [Forest.ids, h])) ha h
  | menu m k rest ih1 ih2 =>
    intro anc p hf hi ha h
    simp only [Forest.menuIds, Forest.ids, List.mem_cons, List.mem_append] at hf hi
    have ha' : Within t ((m, k) :: anc) := by
      intro m2 k2 hm
      rcases List.mem_cons.1 hm with he | hm
      · cases he; exact ⟨hf _ (.inl rfl), fun i h => hf i (.inr (.inl h)), fun i h => hi i (.inr (.inl h))⟩
      · exact ha m2 k2 hm
    simp only [Forest.locate] at h
    split at h
    · cases h; exact ha'
    · split at h
      · rename_i p' hp
        cases h
        exact ih1 _ _ (fun i h => hf i (.inr (.inl h))) (fun i h => hi i (.inr (.inl h))) ha' hp
      · exact ih2 _ _ (fun i h => hf i (.inr (.inr h))) (fun i h => hi i (.inr (.inr h))) ha h

theorem within_locate {t : Tree} {id : Id} {path : Path} (h : t.locate id = some path) : Within t path := by
  have hroot : Within t [(t.root, t.kids)] := by
    intro m k hm
    cases List.mem_singleton.1 hm
    exact ⟨by simp [Tree.menuIds], fun i hi => by simp [Tree.menuIds, hi], fun i hi => by simp [Tree.ids, hi]⟩
  unfold Tree.locate at h
  split at h
  · cases h; exact hroot
  · exact within_forest id t _ _ _ (fun i hi => by simp [Tree.menuIds, hi]) (fun i hi => by simp [Tree.ids, hi]) hroot h

theorem entries_cmd {f : Forest} {c : Cmd} (h : .cmd c ∈ entries f) : c.id ∈ f.ids := by
  induction f with
  | nil => cases h
  | cmd d rest ih =>
    simp only [entries, List.mem_cons, Entry.cmd.injEq] at h
    rcases h with h | h
    · subst h; simp [Forest.ids]
    · simp [Forest.ids, ih h]
  | menu m k rest _ ih =>
    simp only [entries, List.mem_cons, reduceCtorEq, false_or] at h
    simp [Forest.ids, ih h]

theorem entries_menu {f : Forest} {m : MenuInfo} {k : Forest} (h : .menu m k ∈ entries f) :
    m.id ∈ f.menuIds ∧ (∀ i ∈ k.menuIds, i ∈ f.menuIds) ∧ ∀ i ∈ k.ids, i ∈ f.ids := by
  induction f with
  | nil => cases h
  | cmd d rest ih =>
    simp only [entries, List.mem_cons, reduceCtorEq, false_or] at h
    obtain ⟨h1, h2, h3⟩ := ih h
    exact ⟨h1, h2, fun i hi => by simp [Forest.ids, h3 i hi]⟩
  | menu m' k' rest _ ih =>
    simp only [entries, List.mem_cons, Entry.menu.injEq] at h
    rcases h with ⟨rfl, rfl⟩ | h
    · exact ⟨by simp [Forest.menuIds], fun i hi => by simp [Forest.menuIds, hi], fun i hi => by simp [Forest.ids, hi]⟩
    · obtain ⟨h1, h2, h3⟩ := ih h
      exact ⟨by simp [Forest.menuIds, h1], fun i hi => by simp [Forest.menuIds, h2 i hi], fun i hi => by simp [Forest.ids, h3 i hi]⟩

theorem within_walk {dis : Id → Bool} {t : Tree} {p q : Path} {ws : List Str} (h : Walk dis p ws q) : Within t p → Within t q := by
  induction h with
  | stay => exact id
  | @step p q r _ _ hs _ ih =>
    intro hw
    refine ih ?_
    cases hs with
    | down hm _ =>
      intro m2 k2 hmem
      rcases List.mem_cons.1 hmem with he | hmem
      · cases he
        obtain ⟨_, h2, h3⟩ := hw _ _ (List.mem_cons_self ..)
        obtain ⟨e1, e2, e3⟩ := entries_menu hm
        exact ⟨h2 _ e1, fun i hi => h2 _ (e2 i hi), fun i hi => h3 _ (e3 i hi)⟩
      · exact hw _ _ hmem
    | up _ _ => exact fun m2 k2 hmem => hw _ _ (List.mem_cons_of_mem _ hmem)

theorem designated_cmd {w : World σ τ} {path : Path} {toks : List Str} {c : Cmd} {args : List Str} (hp : w.tree.locate w.current = some path)
    (h : DesignatesCmd w.dis path toks c args) : c.id ∈ w.tree.ids := by
  obtain ⟨_, ws, q, _, hw, hc, _⟩ := h
  cases q with
  | nil => cases hc
  | cons mk q =>
    obtain ⟨m, k⟩ := mk
    exact (within_walk hw (within_locate hp) _ _ (List.mem_cons_self ..)).2.2 _ (entries_cmd hc)

theorem designated_menu {w : World σ τ} {path q : Path} {toks : List Str} {m : MenuInfo} {k : Forest} (hp : w.tree.locate w.current = some path)
    (h : DesignatesMenu w.dis path toks ((m, k) :: q)) : m.id ∈ w.tree.menuIds :=
  (within_walk h.2.2 (within_locate hp) _ _ (List.mem_cons_self ..)).1

/-! ### Programs that keep what is used -/

/-- … is preserved, and the objects of `K` stay. -/
def Stays (K P : Id → Prop) (w w' : World σ τ) : Prop := Firm K P w → Firm K P w' ∧ ∀ i, K i → i ∈ w.tree.ids → i ∈ w'.tree.ids

theorem forest_remove_keeps {f : Forest} {id i : Id} (hm : id ∉ f.menuIds) (hi : i ≠ id) (h : i ∈ f.ids) : i ∈ (f.remove id).ids := by
  induction f with
  | nil => cases h
  | cmd c rest ih =>
    simp only [Forest.menuIds, Forest.ids, List.mem_cons] at hm h
    simp only [Forest.remove]
    split
    · rename_i he
      rcases h with h | h
      · exact absurd (h.trans he) hi
      · exact ih hm h
    · simp only [Forest.ids, List.mem_cons]
      rcases h with h | h
      · exact .inl h
      · exact .inr (ih hm h)
  | menu m k rest ih1 ih2 =>
    simp only [Forest.menuIds, Forest.ids, List.mem_cons, List.mem_append, not_or] at hm h
    simp only [Forest.remove]
    rw [if_neg (fun he => hm.1 he.symm)]
    simp only [Forest.ids, List.mem_cons, List.mem_append]
    rcases h with h | h | h
    · exact .inl h
    · exact .inr (.inl (ih1 hm.2.1 h))
    · exact .inr (.inr (ih2 hm.2.2 h))

theorem forest_insert_keeps {f new : Forest} {mid i : Id} (h : i ∈ f.ids) : i ∈ (Forest.insertAt mid new f).ids := by
  induction f with
  | nil => cases h
  | cmd c rest ih =>
    simp only [Forest.insertAt, Forest.ids, List.mem_cons] at h ⊢
    rcases h with h | h
    · exact .inl h
    · exact .inr (ih h)
  | menu m k rest ih1 ih2 =>
    simp only [Forest.insertAt, Forest.ids, List.mem_cons, List.mem_append] at h ⊢
    rcases h with h | h | h
    · exact .inl h
    · refine .inr (.inl ?_)
      split
      · rw [Forest.append_ids]; exact List.mem_append_left _ h
      · exact ih1 h
    · exact .inr (.inr (ih2 h))

theorem firm_settled {K P : Id → Prop} {w : World σ τ} : Firm K P w ↔ Settled K w ∧ ∀ i, P i → Settled K { w with current := i } :=
  ⟨fun h => ⟨⟨h.current, h.all⟩, fun i hi => ⟨h.have_ i hi, h.all⟩⟩, fun h => ⟨h.1.2, fun i hi => (h.2 i hi).1, h.1.1⟩⟩

theorem act_elsewhere (w : World σ τ) (a : Act) (i : Id) : (({ w with current := i } : World σ τ).act a) = { w.act a with current := i } := by
  cases a <;> simp only [World.act] <;> (repeat' split) <;> rfl

theorem act_current (w : World σ τ) (a : Act) : (w.act a).current = w.current := (act_same w a).1.current

theorem stays_act {K P : Id → Prop} (w : World σ τ) (a : Act) (ha : KeepsMenus K a) : Stays K P w (w.act a) := by
  intro hf
  refine ⟨?_, ?_⟩
  · obtain ⟨h1, h2⟩ := firm_settled.1 hf
    refine firm_settled.2 ⟨settled_act w a ha h1, fun i hi => ?_⟩
    have := settled_act _ a ha (h2 i hi)
    rw [act_elsewhere] at this
    exact this
  · intro i hK hi
    cases a with
    | out s => exact hi
    | cout s => exact hi
    | color on => exact hi
    | enable id => simp only [World.act]; split <;> exact hi
    | disable id => simp only [World.act]; split <;> exact hi
    | remove id =>
      simp only [World.act]
      split
      · have hne : i ≠ id := by rintro rfl; exact ha hK
        have hm : id ∉ w.tree.kids.menuIds := fun h => ha (hf.all id (by simp [Tree.menuIds, h]))
        simp only [Tree.remove, Tree.ids, List.mem_cons] at hi ⊢
        rcases hi with hi | hi
        · exact .inl hi
        · exact .inr (forest_remove_keeps hm hne hi)
      · exact hi
    | insert mid new =>
      simp only [World.act]
      split
      · simp only [Tree.insertAt]
        split
        · simp only [Tree.ids, List.mem_cons, Forest.append_ids, List.mem_append] at hi ⊢
          rcases hi with hi | hi
          · exact .inl hi
          · exact .inr (.inl hi)
        · simp only [Tree.ids, List.mem_cons] at hi ⊢
          rcases hi with hi | hi
          · exact .inl hi
          · exact .inr (forest_insert_keeps hi)
      · exact hi

theorem framed_stays {R : RApp σ τ} {K P : Id → Prop} (hA : R.base.Only (KeepsMenus K)) : Framed R (KeepsMenus K) P (Stays K P) := by
  have same : ∀ {w w' : World σ τ}, w'.tree = w.tree → w'.current = w.current → Stays K P w w' := by
    intro w w' h1 h2 h
    exact ⟨⟨by rw [h1]; exact h.all, by rw [h1]; exact h.have_, by rw [h1, h2]; exact h.current⟩, fun i _ hi => by rw [h1]; exact hi⟩
  refine framed_of hA (fun w => same rfl rfl) ?_ (fun w s => same rfl rfl) stays_act (fun w e => same rfl rfl) (fun w i => same rfl rfl) (fun w h => same rfl rfl)
    (fun w i hi h => ⟨⟨h.all, h.have_, hi⟩, fun i _ hi => hi⟩) (fun w i hi h => ⟨⟨h.all, h.have_, h.have_ i hi⟩, fun i _ hi => hi⟩)
    (fun w st => same rfl rfl) (fun w st => same rfl rfl)
  intro a b c h1 h2 h
  obtain ⟨f1, g1⟩ := h1 h
  obtain ⟨f2, g2⟩ := h2 f1
  exact ⟨f2, fun i hK hi => g2 i hK (g1 i hK hi)⟩

section
variable {R : RApp σ τ} {K P : Id → Prop}

/-- What is known of `Feed`. -/
structure Good (K P : Id → Prop) (fd : Feeder σ τ) : Prop where
  fault : ∀ line w f, Firm K P w → fd line w = .error f → Unavoidable f
  exn : ∀ line w w' what, Firm K P w → fd line w ≠ .ok (w', some (.badCast what))
  stays : ∀ line w w' x, fd line w = .ok (w', x) → Stays K P w w'

theorem act_fresh (w : World σ τ) (a : Act) (h : removes a = false) {i : Id} (hi : i ∈ w.tree.ids) : i ∈ (w.act a).tree.ids := by
  cases a with
  | out s => exact hi
  | cout s => exact hi
  | color on => exact hi
  | enable id => simp only [World.act]; split <;> exact hi
  | disable id => simp only [World.act]; split <;> exact hi
  | remove id => cases h
  | insert mid new =>
    simp only [World.act]
    split
    · simp only [Tree.insertAt]
      split
      · simp only [Tree.ids, List.mem_cons, Forest.append_ids, List.mem_append] at hi ⊢
        rcases hi with hi | hi
        · exact .inl hi
        · exact .inr (.inl hi)
      · simp only [Tree.ids, List.mem_cons] at hi ⊢
        rcases hi with hi | hi
        · exact .inl hi
        · exact .inr (forest_insert_keeps hi)
    · exact hi

theorem firm_same {w w' : World σ τ} (h1 : w'.tree = w.tree) (h2 : w'.current = w.current) (h : Firm K P w) : Firm K P w' :=
  ⟨by rw [h1]; exact h.all, by rw [h1]; exact h.have_, by rw [h1, h2]; exact h.current⟩

theorem method_good (hT : R.base.Tame) {fd : Feeder σ τ} (hf : Good K P fd) (m : Method) (w : World σ τ) (hw : Firm K P w) :
    (∀ f, method R fd m w = .error f → Unavoidable f) ∧ (∀ w' what, method R fd m w ≠ .ok (w', some (.badCast what))) ∧
    (m.inert = true → ∀ w' x, method R fd m w = .ok (w', x) → w'.tree = w.tree) := by
  have hl : w.tree.locate w.current ≠ none := Tree.locate_some hw.current
  cases m with
  | feed line => exact ⟨fun f h => hf.fault _ _ _ hw h, fun w' what => hf.exn _ _ _ _ hw, fun h => by cases h⟩
  | exit => exact ⟨fun f h => .inr (.inr (.inl (exit_fault _ _ _ h))), fun w' what => exit_exn _ hT _ _ _, fun h => by cases h⟩
  | prompt =>
    simp only [method]
    cases hp : Verif.prompt w with
    | error f =>
      exfalso
      unfold Verif.prompt at hp
      split at hp
      · cases hp
      · split at hp
        · cases hp
        · rename_i hn
          cases hq : w.tree.locate w.current with
          | none => exact hl hq
          | some p =>
            obtain ⟨m, k, q, rfl, _⟩ := Tree.locate_self hq
            exact hn _ _ _ hq
    | ok w1 =>
      obtain ⟨i, rfl⟩ := prompt_io hp
      exact ⟨fun f h => (by cases h), (fun w' what h => by simp [Except.map] at h), fun _ w' x h => by cases h; rfl⟩
  | help =>
    simp only [method]
    cases hp : helpCmd w with
    | error f =>
      exfalso
      unfold helpCmd at hp
      split at hp
      · rename_i hq; exact hl hq
      · cases hp
    | ok w1 =>
      obtain ⟨i, rfl⟩ := help_io hp
      exact ⟨fun f h => (by cases h), (fun w' what h => by simp [Except.map] at h), fun _ w' x h => by cases h; rfl⟩
  | history =>
    simp only [method]
    split <;> exact ⟨fun f h => (by cases h), (fun w' what h => by simp at h), fun _ w' x h => by cases h; rfl⟩
  | again n =>
    refine ⟨?_, ?_, fun h => by cases h⟩
    · intro f h
      simp only [method] at h
      split at h
      · rename_i hh; cases h; exact .inr (.inr (.inr (forget_fault hh)))
      · split at h
        · rename_i hh; cases h; exact .inr (.inr (.inl (at_fault hh)))
        · cases h
        · exact hf.fault _ _ _ (firm_same (by rfl) (by rfl) hw) h
    · intro w' what h
      simp only [method] at h
      split at h
      · cases h
      · split at h
        · cases h
        · simp at h
        · exact hf.exn _ _ _ _ (firm_same (by rfl) (by rfl) hw) h
  | goto i => exact ⟨fun f h => (by cases h), (fun w' what h => by simp [method] at h), fun _ w' x h => by cases h; rfl⟩

theorem run_good (hT : R.base.Tame) (hA : R.base.Only (KeepsMenus K)) {fd : Feeder σ τ} (hf : Good K P fd) (c : Cmd) (q : Prog σ) :
    ∀ (fresh : Bool), q.Mild K c.id fresh → q.Uses (KeepsMenus K) P → ∀ w : World σ τ, Firm K P w → (fresh = true ∨ K c.id → c.id ∈ w.tree.ids) →
      (∀ f, run R fd c q w = .error f → Unavoidable f) ∧ ∀ w' what, run R fd c q w ≠ .ok (w', some (.badCast what)) := by
  induction q with
  | ret x => intro fresh hm _ w _ _; exact ⟨fun f h => (by cases h), fun w' what h => hm what (by cases h; rfl)⟩
  | get k ih => intro fresh hm hu w hw hc; exact ih _ fresh (hm _) (hu _) w hw hc
  | set s k ih => intro fresh hm hu w hw hc; exact ih fresh hm hu _ ⟨hw.all, hw.have_, hw.current⟩ hc
  | act a k ih =>
    intro fresh hm hu w hw hc
    obtain ⟨h1, h2⟩ := stays_act w a hu.1 hw
    refine ih _ hm hu.2 _ h1 ?_
    rintro (h | h)
    · rw [Bool.and_eq_true, Bool.not_eq_true'] at h
      exact act_fresh w a h.2 (hc (.inl h.1))
    · exact h2 _ h (hc (.inr h))
  | touch k ih =>
    intro fresh hm hu w hw hc
    simp only [run, if_pos (hc hm.1)]
    exact ih fresh hm.2 hu w hw hc
  | call m k ih =>
    intro fresh hm hu w hw hc
    obtain ⟨h1, h2, h3⟩ := method_good (R := R) hT hf m w hw
    simp only [run]
    cases hr : method R fd m w with
    | error f => exact ⟨fun f' h => by cases h; exact h1 f hr, fun w' what h => by cases h⟩
    | ok v =>
      obtain ⟨w1, x⟩ := v
      simp only
      obtain ⟨g1, g2⟩ := framed_method (framed_stays hA) fd hf.stays m hu.1 _ _ _ hr hw
      refine ih x _ (hm x ?_) (hu.2 x) w1 g1 ?_
      · rintro what rfl; exact h2 _ _ hr
      · rintro (h | h)
        · rw [Bool.and_eq_true] at h
          rw [h3 h.2 _ _ hr]
          exact hc (.inl h.1)
        · exact g2 _ h (hc (.inr h))

theorem feed_good (hT : R.base.Tame) (hA : R.base.Only (KeepsMenus K)) (hu : ∀ fn args, (R.prog fn args).Uses (KeepsMenus K) P)
    (hm : ∀ (c : Cmd) args, (R.prog c.fn args).Mild K c.id true) (fuel : Nat) : Good K P (feed R fuel) := by
  have stays : ∀ fuel line (w w' : World σ τ) x, feed R fuel line w = .ok (w', x) → Stays K P w w' := fun fuel line w w' x h => frame (framed_stays hA) hu h
  induction fuel with
  | zero => exact ⟨fun line w f _ h => by cases h; exact .inl rfl, fun line w w' what _ h => (by cases h), stays 0⟩
  | succ fuel ih =>
    have hexn : ∀ line w w' what, feed R (fuel + 1) line w ≠ .ok (w', some (.badCast what)) := by
      intro line w w' what h
      obtain ⟨toks, hl⟩ := line_exists line
      by_cases ht : toks = []
      · subst ht; rw [feed_blank R hl] at h; simp at h
      · rw [feed_eq R hl ht] at h
        split at h
        · cases h
        · exact catchAll_exn _ hT _ _ _ _ h
    refine ⟨?_, fun line w w' what _ => hexn line w w' what, stays _⟩
    intro line w f hw h
    obtain ⟨toks, hl⟩ := line_exists line
    by_cases ht : toks = []
    · subst ht; rw [feed_blank R hl] at h; cases h
    · rw [feed_eq R hl ht] at h
      split at h
      · rename_i hh; cases h; exact .inr (.inr (.inr (newCommand_fault hh)))
      · rename_i h1 hh
        have hw1 : Firm K P (w.entered h1) := ⟨hw.all, hw.have_, hw.current⟩
        have hb := catchAll_fault _ line _ f h
        have hcl : w.tree.locate w.current ≠ none := Tree.locate_some hw.current
        have huser : ∀ f, userPart R (feed R fuel) line toks (w.entered h1) = .error f → Unavoidable f := by
          intro f hb
          cases hp : w.tree.locate w.current with
          | none => exact absurd hp hcl
          | some path =>
            have hrun : ∀ (c : Cmd) args, DesignatesCmd w.dis path toks c args → ∀ vals,
                (∀ f, run R (feed R fuel) c (R.prog c.fn vals) (w.entered h1) = .error f → Unavoidable f) ∧
                ∀ w' what, run R (feed R fuel) c (R.prog c.fn vals) (w.entered h1) ≠ .ok (w', some (.badCast what)) := by
              intro c args hd vals
              exact run_good hT hA ih c _ true (hm c vals) (hu _ _) _ hw1 fun _ => designated_cmd hp hd
            have hcall : ∀ c args, DesignatesCmd w.dis path toks c args → ∀ vals w' what,
                callProg R (feed R fuel) c vals (w.entered h1) ≠ .ok (w', some (.badCast what)) := by
              intro c args hd vals w' what hc
              unfold callProg at hc
              split at hc
              · cases hc
              · rename_i he
                simp only [Except.ok.injEq, Prod.mk.injEq] at hc
                rw [hc.2] at he
                exact (hrun c args hd vals).2 _ _ he
            unfold userPart at hb
            rcases scanCurrent_cases R.base.plat (callProg R (feed R fuel)) toks ht (w.entered h1) hp hcall with
              h2 | ⟨m, k, q, hd, h2⟩ | ⟨e, h2⟩ | ⟨c, args, vals, hd, ha, h2⟩ | ⟨f', hf', h2⟩ <;> rw [h2] at hb
            · simp only at hb
              split at hb <;> cases hb
            · cases hb
            · cases hb
            · unfold callProg at hb
              cases hr : run R (feed R fuel) c (R.prog c.fn vals) (w.entered h1) with
              | error f' => rw [hr] at hb; cases hb; exact (hrun c args hd vals).1 _ hr
              | ok v =>
                obtain ⟨w2, x⟩ := v
                rw [hr] at hb
                cases x with
                | none => cases hb
                | some e =>
                  cases e with
                  | badCast what => exact absurd hr ((hrun c args hd vals).2 _ _)
                  | std s => cases hb
                  | other => cases hb
            · cases hb; exact .inr (.inl hf')
        unfold body at hb
        rcases scanGlobal_cases R.base (feed R fuel) toks ht (w.entered h1) with ⟨_, h2⟩ | ⟨_, h2, arg, _, c, hcm, hub⟩ | ⟨_, h2⟩ | ⟨_, h2⟩ | ⟨_, h2⟩ | ⟨arg, n, _, _, _, h2⟩ <;>
            rw [h2] at hb
        · exact huser f hb
        · cases hb
          refine .inr (.inl ⟨R.base.plat, .unsigned .w32, [c], .ctype, ?_, rfl⟩)
          have h43 : c ≠ b%'+' := by
            rintro rfl
            simp [Platform.ctypeUB] at hub
          simp [FromString.fromString, FromString.unsignedFromString, FromString.unsignedDigits, FromString.digitsLoop, FromString.isdigit, hub, h43, Except.map, bind, Except.bind]
        · unfold helpPart at hb
          cases hh : helpCmd ((w.entered h1).note (.builtin .help)) with
          | error f' =>
            exfalso
            unfold helpCmd at hh
            split at hh
            · rename_i hn; exact absurd hn hcl
            · cases hh
          | ok w2 => rw [hh] at hb; cases hb
        · unfold exitPart at hb
          cases he : exitSession R.base ((w.entered h1).note (.builtin .exit)) with
          | error f' => rw [he] at hb; cases hb; exact .inr (.inr (.inl (exit_fault _ _ _ he)))
          | ok v =>
            obtain ⟨w2, x⟩ := v
            rw [he] at hb
            cases x with
            | none => cases hb
            | some e =>
              cases e with
              | badCast what => exact absurd he (exit_exn _ hT _ _ _)
              | std s => cases hb
              | other => cases hb
        · cases hb
        · unfold bangPart at hb
          cases hf : History.forgetLatest (w.entered h1).hist with
          | error f' => rw [hf] at hb; cases hb; exact .inr (.inr (.inr (forget_fault hf)))
          | ok h2 =>
            rw [hf] at hb
            simp only at hb
            cases hat : History.at h2 n with
            | error f' => rw [hat] at hb; cases hb; exact .inr (.inr (.inl (at_fault hat)))
            | ok o =>
              rw [hat] at hb
              cases o with
              | none => cases hb
              | some cmd =>
                simp only at hb
                cases hfd : feed R fuel cmd { (w.entered h1).note (.builtin (.bang n)) with hist := h2 } with
                | error f' => rw [hfd] at hb; cases hb; exact ih.fault _ _ _ (firm_same (by rfl) (by rfl) hw) hfd
                | ok v =>
                  obtain ⟨w2, x⟩ := v
                  rw [hfd] at hb
                  cases x with
                  | none => cases hb
                  | some e =>
                    cases e with
                    | badCast what => exact absurd hfd (ih.exn _ _ _ _ (firm_same (by rfl) (by rfl) hw))
                    | std s => cases hb
                    | other => cases hb

end
end Verif.Reentrant
