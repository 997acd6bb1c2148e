import Verif.Model.Statics

set_option linter.unusedSimpArgs false

/-!
# Property C127: the stream of `Cli::cout()` exists as long as it is used
-/

namespace Verif.Statics

/-! ### Proof -/

/-- The owners are counted, and the variable is only destroyed after everything that was constructed after it. -/
structure Inv (s : St) : Prop where
  count : s.owners = s.sessions.length + (if .cout ∈ s.statics then 1 else 0)
  once : s.statics.count .cout ≤ 1
  made : .cout ∈ s.statics → s.made = true
  before : s.made = false → s.sessions = []
  early : s.made = true → s.ended = false → .cout ∈ s.statics

theorem inv_init : Inv init := ⟨rfl, by decide, by simp [init], fun _ => rfl, by simp [init]⟩

theorem inv_coutPtr {s t : St} (h : Inv s) (hs : coutPtr s = .ok t) : Inv t ∧ t.made = true ∧ .cout ∈ t.statics ∧ t.sessions = s.sessions ∧ t.ended = s.ended := by
  unfold coutPtr at hs
  split at hs
  · rename_i hm
    split at hs
    · rename_i hc; cases hs; exact ⟨h, hm, hc, rfl, rfl⟩
    · cases hs
  · rename_i hm
    cases hs
    have hm' : s.made = false := by simpa using hm
    have hn : Static.cout ∉ s.statics := fun hc => by rw [h.made hc] at hm'; cases hm'
    refine ⟨⟨by simp [h.before hm'], ?_, fun _ => rfl, fun h => (by cases h), fun _ _ => List.mem_cons_self⟩, rfl, List.mem_cons_self, rfl, rfl⟩
    simp [List.count_eq_zero.2 hn]

theorem inv_step {s t : St} {o : Op} (h : Inv s) (hs : step s o = .ok (some t)) : Inv t := by
  cases o with
  | construct k =>
    simp only [step] at hs
    split at hs <;> cases hs
    exact ⟨by simpa using h.count, by simpa using h.once, fun hc => h.made (by simpa using hc), h.before, fun a b => by simpa using h.early a b⟩
  | create i =>
    simp only [step] at hs
    split at hs
    · cases hs
    · split at hs
      · cases hs
      · rename_i u hu
        cases hs
        obtain ⟨h', h1, h2, h3, h4⟩ := inv_coutPtr h hu
        exact ⟨by simp [h'.count]; omega, h'.once, h'.made, (fun hm => (by simp only [h1] at hm; cases hm)), h'.early⟩
  | destroy i =>
    simp only [step] at hs
    split at hs
    · rename_i hi
      split at hs <;> cases hs
      refine ⟨?_, h.once, h.made, fun hm => (by rw [h.before hm] at hi; cases hi), h.early⟩
      have := List.length_erase_of_mem hi
      have hp := List.length_pos_of_mem hi
      simp only [h.count, this]
      omega
    · cases hs
  | write =>
    simp only [step] at hs
    split at hs
    · cases hs
    · rename_i u hu
      split at hs <;> cases hs
      exact (inv_coutPtr h hu).1
  | exit =>
    simp only [step] at hs
    split at hs <;> cases hs
    exact ⟨h.count, h.once, h.made, h.before, fun _ he => (by cases he)⟩
  | next =>
    simp only [step] at hs
    split at hs
    · rename_i he
      split at hs <;> cases hs
      · rename_i rest hr
        have h1 := h.once; have h2 := h.count
        rw [hr] at h1 h2
        have hn : Static.cout ∉ rest := by rw [← List.count_eq_zero]; simp at h1; simpa using h1
        exact ⟨by simp [hn]; simp at h2; omega, by simp [List.count_eq_zero.2 hn], fun hc => absurd hc hn, h.before, fun _ h' => by simp only [he] at h'; cases h'⟩
      · rename_i k rest hr
        have h1 := h.once; have h2 := h.count; have h3 := h.made
        rw [hr] at h1 h2 h3
        exact ⟨by simpa using h2, by simpa using h1, fun hc => h3 (List.mem_cons_of_mem _ hc), h.before, fun _ h' => by simp only [he] at h'; cases h'⟩
    · cases hs

theorem inv_run (os : List Op) : ∀ {s t : St}, Inv s → run os s = .ok (some t) → Inv t := by
  induction os with
  | nil => intro s t h hs; cases hs; exact h
  | cons o os ih =>
    intro s t h hs
    simp only [run] at hs
    split at hs
    · cases hs
    · cases hs
    · rename_i u hu; exact ih (inv_step h hu) hs

/-! ### Sessions -/

/-- **C127** Whenever a session exists, the stream does: a session can be destroyed at any time, also after the static variable. -/
theorem C127_destroy (os : List Op) (s : St) (h : run os init = .ok (some s)) (i : Nat) (hi : i ∈ s.sessions) :
    s.exists = true ∧ ∃ t, step s (.destroy i) = .ok (some t) ∧ t.sessions = s.sessions.erase i := by
  have g := inv_run os inv_init h
  have hp := List.length_pos_of_mem hi
  have he : s.exists = true := by simp only [St.exists, g.count, bne_iff_ne]; omega
  exact ⟨he, { s with owners := s.owners - 1, sessions := s.sessions.erase i }, by simp only [step, hi, he, if_true], rfl⟩

/-- **C127** The stream is destroyed: when all is destroyed that uses it, and not before. -/
theorem C127_freed (os : List Op) (s : St) (h : run os init = .ok (some s)) : s.exists = false ↔ s.sessions = [] ∧ .cout ∉ s.statics := by
  have g := inv_run os inv_init h
  simp only [St.exists, g.count]
  by_cases hc : Static.cout ∈ s.statics
  · simp [hc]
  · simp [hc]

/-! ### Uses of `Cli::cout()` -/

/-- **C127** (partial: not in destructors of objects constructed before the first use) As long as the program has not ended, which it has not at the beginning, `Cli::cout()` can be used and sessions can be created; and it can end. -/
theorem C127_running_partial (os : List Op) (s : St) (h : run os init = .ok (some s)) (he : s.ended = false) :
    (∃ t, step s .write = .ok (some t) ∧ t.sessions = s.sessions ∧ t.exists = true) ∧
    (∀ i, i ∉ s.sessions → ∃ t, step s (.create i) = .ok (some t) ∧ t.sessions = i :: s.sessions ∧ t.exists = true) ∧
    (∃ t, step s .exit = .ok (some t) ∧ t.ended = true ∧ t.statics = s.statics ∧ t.sessions = s.sessions) ∧ (os = [] → s.ended = false ∧ s.sessions = [] ∧ s.statics = []) := by
  have g := inv_run os inv_init h
  refine ⟨?_, ?_, ⟨{ s with ended := true }, by simp [step, he], rfl, rfl, rfl⟩, ?_⟩
  rotate_left 2
  · rintro rfl
    simp only [run, Except.ok.injEq, Option.some.injEq] at h
    subst h
    exact ⟨rfl, rfl, rfl⟩
  all_goals
    cases hc : coutPtr s with
    | error u' =>
      exfalso
      unfold coutPtr at hc
      split at hc
      · rename_i hm
        rw [if_pos (g.early hm he)] at hc
        cases hc
      · cases hc
    | ok t =>
      obtain ⟨k, k1, k2, k3, k4⟩ := inv_coutPtr g hc
      have hx : t.exists = true := by simp only [St.exists, k.count, k2, if_true, bne_iff_ne]; omega
      first
        | exact ⟨t, by simp only [step, hc, hx, if_true], k3, hx⟩
        | exact fun i hi => ⟨{ t with owners := t.owners + 1, sessions := i :: t.sessions }, by simp only [step, hc, hi, if_false], by rw [k3], by simp [St.exists]⟩

/-- The variable `s` was there before the object `h`. -/
def Later (h : Nat) (s : St) : Prop := s.made = true ∧ ∀ a b, s.statics = a ++ .other h :: b → .cout ∈ b

theorem coutPtr_made {s t : St} (hm : s.made = true) (h : coutPtr s = .ok t) : t = s := by
  unfold coutPtr at h
  rw [if_pos hm] at h
  split at h <;> cases h
  rfl

theorem later_step {s t : St} {o : Op} {h : Nat} (hi : Inv s) (hl : Later h s) (hs : step s o = .ok (some t)) : Later h t := by
  obtain ⟨hm, hl⟩ := hl
  cases o with
  | construct k =>
    simp only [step] at hs
    split at hs <;> cases hs
    rename_i hk
    refine ⟨hm, fun a b hab => ?_⟩
    cases a with
    | nil =>
      simp only [List.nil_append, List.cons.injEq] at hab
      rw [← hab.2]
      exact hi.early hm (by simpa using fun he => hk (.inl he))
    | cons x a =>
      simp only [List.cons_append, List.cons.injEq] at hab
      exact hl a b hab.2
  | create i =>
    simp only [step] at hs
    split at hs
    · cases hs
    · split at hs
      · cases hs
      · rename_i u hu
        cases coutPtr_made hm hu
        cases hs
        exact ⟨hm, hl⟩
  | destroy i =>
    simp only [step] at hs
    split at hs
    · split at hs <;> cases hs
      exact ⟨hm, hl⟩
    · cases hs
  | write =>
    simp only [step] at hs
    split at hs
    · cases hs
    · rename_i u hu
      cases coutPtr_made hm hu
      split at hs <;> cases hs
      exact ⟨hm, hl⟩
  | exit =>
    simp only [step] at hs
    split at hs <;> cases hs
    exact ⟨hm, hl⟩
  | next =>
    simp only [step] at hs
    split at hs
    · split at hs
      · cases hs
      · rename_i rest hr
        cases hs
        exact ⟨hm, fun a b hab => hl (.cout :: a) b (by rw [hr, show rest = a ++ .other h :: b from hab]; rfl)⟩
      · rename_i k rest hr
        cases hs
        exact ⟨hm, fun a b hab => hl (.other k :: a) b (by rw [hr, show rest = a ++ .other h :: b from hab]; rfl)⟩
    · cases hs

theorem later_run (os : List Op) : ∀ {s t : St} {h : Nat}, Inv s → Later h s → run os s = .ok (some t) → Later h t := by
  induction os with
  | nil => intro s t h _ hl hs; cases hs; exact hl
  | cons o os ih =>
    intro s t h hi hl hs
    simp only [run] at hs
    split at hs
    · cases hs
    · cases hs
    · rename_i u hu; exact ih (inv_step hi hu) (later_step hi hl hu) hs

theorem run_append (os os' : List Op) : ∀ (s : St), run (os ++ os') s = (match run os s with | .ok (some t) => run os' t | r => r) := by
  induction os with
  | nil => intro s; rfl
  | cons o os ih =>
    intro s
    simp only [List.cons_append, run]
    cases step s o with
    | error u => rfl
    | ok r =>
      cases r with
      | none => rfl
      | some t => exact ih t

/-- `Cli::cout()` has been used, or a session has been created. -/
theorem made_run (os : List Op) : ∀ {s t : St}, run os s = .ok (some t) → (s.made = true ∨ .write ∈ os ∨ ∃ i, .create i ∈ os) → t.made = true := by
  induction os with
  | nil => intro s t hs h; cases hs; simpa using h
  | cons o os ih =>
    intro s t hs h
    simp only [run] at hs
    split at hs
    · cases hs
    · cases hs
    · rename_i u hu
      have hk : s.made = true → u.made = true := by
        intro hm
        cases o <;> simp only [step] at hu
        · split at hu <;> cases hu; exact hm
        · split at hu
          · cases hu
          · split at hu
            · cases hu
            · rename_i v hv; cases coutPtr_made hm hv; cases hu; exact hm
        · split at hu
          · split at hu <;> cases hu; exact hm
          · cases hu
        · split at hu
          · cases hu
          · rename_i v hv; cases coutPtr_made hm hv; split at hu <;> cases hu; exact hm
        · split at hu <;> cases hu; exact hm
        · split at hu
          · split at hu <;> cases hu <;> exact hm
          · cases hu
      have hc : ∀ v, coutPtr s = .ok v → v.made = true := by
        intro v hv
        unfold coutPtr at hv
        split at hv
        · split at hv <;> cases hv; assumption
        · cases hv; rfl
      refine ih hs ?_
      rcases h with h | h | ⟨i, h⟩
      · exact .inl (hk h)
      · rcases List.mem_cons.1 h with h | h
        · subst h
          simp only [step] at hu
          split at hu
          · cases hu
          · rename_i v hv; split at hu <;> cases hu; exact .inl (hc _ hv)
        · exact .inr (.inl h)
      · rcases List.mem_cons.1 h with h | h
        · subst h
          simp only [step] at hu
          split at hu
          · cases hu
          · split at hu
            · cases hu
            · rename_i v hv; cases hu; exact .inl (hc v hv)
        · exact .inr (.inr ⟨i, h⟩)

/-- **C127** (partial) `Cli::cout()` can be used, and sessions can be created, in the destructor of an object with static storage duration that was completed after the first such use. -/
theorem C127_destructor_partial (os os' : List Op) (h : Nat) (s : St) (hm : .write ∈ os ∨ ∃ i, .create i ∈ os) (hr : run (os ++ .construct h :: os') init = .ok (some s)) (hh : .other h ∈ s.statics) (u : UB) :
    step s .write ≠ .error u ∧ ∀ i, step s (.create i) ≠ .error u := by
  have g := inv_run _ inv_init hr
  rw [run_append] at hr
  split at hr
  · rename_i t ht
    have hi := inv_run os inv_init ht
    have hmt := made_run os ht (.inr hm)
    simp only [run] at hr
    split at hr
    · cases hr
    · cases hr
    · rename_i v hv
      have hl : Later h v := by
        simp only [step] at hv
        split at hv <;> cases hv
        rename_i hk
        refine ⟨hmt, fun a b hab => ?_⟩
        cases a with
        | nil =>
          simp only [List.nil_append, List.cons.injEq] at hab
          rw [← hab.2]
          exact hi.early hmt (by simpa using fun he => hk (.inl he))
        | cons x a =>
          simp only [List.cons_append, List.cons.injEq] at hab
          exact absurd (by rw [hab.2]; simp) (fun hx => hk (.inr hx))
      obtain ⟨k1, k2⟩ := later_run os' (inv_step hi hv) hl hr
      obtain ⟨a, b, hab⟩ := List.append_of_mem hh
      have hc : Static.cout ∈ s.statics := by rw [hab]; exact List.mem_append_right _ (List.mem_cons_of_mem _ (k2 a b hab))
      have hp : coutPtr s = .ok s := by simp only [coutPtr, k1, hc, if_true]
      have hx : s.exists = true := by simp only [St.exists, g.count, hc, if_true, bne_iff_ne]; omega
      simp only [step, hp, hx, if_true]
      exact ⟨nofun, fun i => by split <;> nofun⟩
  · rename_i hx
    exact absurd hr (hx s)

/-- A session that is kept by an object constructed before it (a global smart pointer) is destroyed after the variable; then the stream is destroyed. -/
example : ∃ s t, run [.construct 1, .create 7, .write, .exit, .next] init = .ok (some s) ∧ s.statics = [.other 1] ∧ s.exists = true ∧ run [.destroy 7, .next] s = .ok (some t) ∧ t = ⟨[], true, true, 0, []⟩ :=
  ⟨_, _, rfl, rfl, rfl, rfl, rfl⟩

/-- An object that is constructed after the first session may use it in its destructor. -/
example : ∃ s, run [.construct 1, .create 7, .construct 2, .destroy 7, .exit] init = .ok (some s) ∧ s.statics = [.other 2, .cout, .other 1] ∧ step s .write = .ok (some s) := ⟨_, rfl, rfl, rfl⟩

/-- **C127** (refuted) In the destructor of any object that was constructed before the first use of `Cli::cout()` and the first session, using `Cli::cout()` is undefined, even if a session exists and keeps the stream. -/
theorem C127_refuted (h : Nat) (i : Nat) : ∃ s, run [.construct h, .create i, .exit, .next] init = .ok (some s) ∧ .other h ∈ s.statics ∧ i ∈ s.sessions ∧ s.exists = true ∧
    step s .write = .error .dangling ∧ ∀ j, j ≠ i → step s (.create j) = .error .dangling := by
  refine ⟨⟨[.other h], true, true, 1, [i]⟩, ?_, by simp, by simp, rfl, ?_, ?_⟩
  · simp [run, step, init, coutPtr]
  · simp [step, coutPtr]
  · intro j hj; simp [step, coutPtr, hj]

end Verif.Statics
