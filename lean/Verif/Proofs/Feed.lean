import Verif.Proofs.Sound
import Verif.Proofs.Split
import Verif.Proofs.HistoryOps
import Verif.Proofs.FromString
import Verif.Spec.Global

set_option linter.unusedSimpArgs false

/-!
# What `Feed` does with a line that designates no built-in command
-/

namespace Verif
open Spec
open FromString (Value ConvErr)

variable {σ τ : Type}

section
variable (A : App σ τ)

theorem split_iff (line : Str) (toks : List Str) : Split.split line = .ok toks ↔ Lex.Line line toks := by
  constructor
  · intro h
    obtain ⟨args', h'⟩ := Split.line_total line
    rw [Split.split_of_line h'] at h
    injection h with h
    exact h ▸ h'
  · exact Split.split_of_line

/-- What `Feed` does after the built-in commands. -/
def userPart (line : Str) (toks : List Str) (w : World σ τ) : Res σ τ :=
  match scanCurrent A toks w with
  | .ok (w, .notFound) =>
    match wrongCommand A line w with
    | (w, none) => .ok (w, .found)
    | (w, some e) => .ok (w, .thrown e)
  | r => r

theorem scanGlobal_user (fd : Str → World σ τ → Except Fault (World σ τ × Option Exn)) {toks : List Str} (ht : UserLine A.plat toks) (w : World σ τ) :
    scanGlobal A fd toks w = .ok (w, .notFound) := by
  match toks, ht with
  | [], ht => exact absurd rfl ht.nonempty
  | [t], ht =>
    have h1 : t ≠ bs!"help" := by rintro rfl; exact ht.notGlobal _ .help
    have h2 : t ≠ bs!"exit" := by rintro rfl; exact ht.notGlobal _ .exit
    have h3 : t ≠ bs!"history" := by rintro rfl; exact ht.notGlobal _ .history
    simp only [scanGlobal, if_neg h1, if_neg h2, if_neg h3]
  | [t, arg], ht =>
    simp only [scanGlobal]
    by_cases hb : t = bs!"!"
    · subst hb
      rw [if_pos rfl]
      cases hu : FromString.unsignedFromString A.plat .w32 arg with
      | ok n =>
        obtain ⟨h1, h2⟩ := (FromString.unsigned_ok _ _ _ _).1 hu
        exact absurd (GlobalLine.bang h1 h2) (ht.notGlobal _)
      | error e =>
        rcases FromString.unsigned_error _ _ _ hu with rfl | ⟨_, c, hc, hu⟩
        · rfl
        · rw [ht.ctype arg rfl c hc] at hu; cases hu
    · rw [if_neg hb]
  | t1 :: t2 :: t3 :: ts, ht => rfl

theorem feed_user {line : Str} {toks : List Str} (hl : Lex.Line line toks) (ht : UserLine A.plat toks) (fuel : Nat) (w : World σ τ) {h : History.History}
    (hh : History.newCommand w.hist line = .ok h) :
    feed A (fuel + 1) line w = catchAll A line (userPart A line toks { w with hist := h }) := by
  simp only [feed, (split_iff _ _).2 hl, bind, Except.bind, ht.nonempty, if_false, hh, scanGlobal_user A _ ht]
  rfl

/-! ### Usable designations -/

theorem convert_clean (p : Platform) (ps : List Param) : ∀ (args : List Str), args.length = ps.length →
    (∀ q a, (q, a) ∈ ps.zip args → ∀ e, FromString.fromString p q.ty a = .error e → e = .bad) →
    ∀ e, convert p ps args = .error e → e = .bad := by
  induction ps with
  | nil =>
    intro args hl _ e h
    cases args with
    | nil => simp [convert] at h
    | cons a as => simp at hl
  | cons q qs ih =>
    intro args hl hc e h
    cases args with
    | nil => simp at hl
    | cons a as =>
      simp only [convert, bind, Except.bind, pure, Except.pure] at h
      cases hv : FromString.fromString p q.ty a with
      | error e' =>
        rw [hv] at h
        simp only [Except.error.injEq] at h
        subst h
        exact hc q a (by simp) _ hv
      | ok v =>
        rw [hv] at h
        simp only at h
        cases hvs : convert p qs as with
        | error e' =>
          rw [hvs] at h
          simp only [Except.error.injEq] at h
          subst h
          exact ih as (by simpa using hl) (fun q' a' h' => hc q' a' (by simp [h'])) _ hvs
        | ok vs => rw [hvs] at h; simp at h

/-- With clean arguments a command either is refused or runs. -/
theorem verdict_clean (p : Platform) (c : Cmd) (args : List Str) (h : CleanArgs p c args) :
    (verdict p c args = .reject ∧ ∀ vals, ¬ Accepts p c args vals) ∨ ∃ vals, verdict p c args = .run vals ∧ Accepts p c args vals := by
  cases hv : verdict p c args with
  | reject =>
    refine .inl ⟨rfl, fun vals ha => ?_⟩
    rw [(verdict_run p c args vals).2 ha] at hv; cases hv
  | run vals => exact .inr ⟨vals, rfl, (verdict_run p c args vals).1 hv⟩
  | raise e =>
    exfalso
    unfold verdict at hv
    split at hv
    · rename_i ps hk
      split at hv
      · cases hv
      · rename_i hl
        cases hc : convert p ps args with
        | ok vals => rw [hc] at hv; cases hv
        | error e' =>
          rw [convert_clean p ps args (by simpa using hl) (h ps hk (by simpa using hl)) _ hc] at hc
          rw [hc] at hv; cases hv
    · cases hv
  | crash u =>
    exfalso
    unfold verdict at hv
    split at hv
    · rename_i ps hk
      split at hv
      · cases hv
      · rename_i hl
        cases hc : convert p ps args with
        | ok vals => rw [hc] at hv; cases hv
        | error e' =>
          rw [convert_clean p ps args (by simpa using hl) (h ps hk (by simpa using hl)) _ hc] at hc
          rw [hc] at hv; cases hv
    · cases hv

theorem rejected_refused {p : Platform} {x : Cand} (hr : Rejected p x) : Refused p x.2 := by
  obtain ⟨c, args, hx, hv⟩ := hr
  rw [hx]
  intro vals ha
  rw [(verdict_run p c args vals).2 ha] at hv; cases hv

theorem refused_rejected {p : Platform} {dis : Id → Bool} {path : Path} {toks : List Str} (hc : CleanLine p dis path toks) {x : Cand}
    (hx : x ∈ cands dis toks path) (hr : Refused p x.2) : Rejected p x := by
  obtain ⟨cs, t⟩ := x
  cases t with
  | menu q => exact absurd hr (by simp [Refused])
  | cmd c args =>
    rcases verdict_clean p c args (hc c args ((designatesCmd_iff _ _ _ _ _).2 ⟨cs, hx⟩)) with ⟨h, _⟩ | ⟨vals, _, h⟩
    · exact ⟨c, args, rfl, h⟩
    · exact absurd h (hr vals)

theorem lex_irrefl (a : List Nat) : ¬ Lex a a := by
  induction a with
  | nil => exact id
  | cons x xs ih =>
    rintro (h | ⟨_, h⟩)
    · omega
    · exact ih h

theorem lex_trans {a b c : List Nat} (h1 : Lex a b) (h2 : Lex b c) : Lex a c := by
  induction a generalizing b c with
  | nil =>
    cases b with
    | nil => exact absurd h1 id
    | cons y ys =>
      cases c with
      | nil => exact absurd h2 id
      | cons z zs => trivial
  | cons x xs ih =>
    cases b with
    | nil => exact absurd h1 id
    | cons y ys =>
      cases c with
      | nil => exact absurd h2 id
      | cons z zs =>
        rcases h1 with h1 | ⟨rfl, h1⟩
        · rcases h2 with h2 | ⟨rfl, h2⟩
          · exact .inl (Nat.lt_trans h1 h2)
          · exact .inl h1
        · rcases h2 with h2 | ⟨rfl, h2⟩
          · exact .inl h2
          · exact .inr ⟨rfl, ih h1 h2⟩

/-- What the search does, in terms of the specification. -/
theorem search_cases (w : World σ τ) (toks : List Str) (ht : toks ≠ []) (path : Path) (hc : CleanLine A.plat w.dis path toks) :
    ((∀ c args vals, DesignatesCmd w.dis path toks c args → ¬ Accepts A.plat c args vals) ∧ (∀ q, ¬ DesignatesMenu w.dis path toks q) ∧
      scanCmds A toks path w = .ok (w, .notFound)) ∨
    (∃ x, Chosen A.plat w.dis path toks x ∧ ((∀ w', take A x w ≠ .ok (w', .notFound)) → scanCmds A toks path w = take A x w)) := by
  have hst := starts_scanCmds A w toks ht path
  rcases first_or_none A.plat (cands w.dis toks path) with h1 | ⟨pre, x, post, h1, h2, h3⟩
  · refine .inl ⟨?_, ?_, hst.1 h1⟩
    · intro c args vals hd ha
      obtain ⟨cs, hcs⟩ := (designatesCmd_iff _ _ _ _ _).1 hd
      exact rejected_refused (h1 _ hcs) vals ha
    · intro q hd
      obtain ⟨cs, hcs⟩ := (designatesMenu_iff _ _ _ _).1 hd
      exact (rejected_refused (h1 _ hcs))
  · refine .inr ⟨x.2, ?_, hst.2 pre x post h1 h2 h3⟩
    have hx : x ∈ cands w.dis toks path := by rw [h1]; simp
    obtain ⟨he, hdes⟩ := (mem_cands _ _ _ _).1 hx
    refine ⟨he, x.1, hdes, fun hr => h3 (refused_rejected hc hx hr), ?_⟩
    intro cs' x' hd' hlex
    have hx' : (cs', x') ∈ cands w.dis toks path := (mem_cands _ _ _ _).2 ⟨he, hd'⟩
    have hs := sorted_cands w.dis toks path
    rw [h1] at hx' hs
    rw [List.mem_append, List.mem_cons] at hx'
    rw [List.pairwise_append, List.pairwise_cons] at hs
    rcases hx' with hx' | hx' | hx'
    · exact rejected_refused (h2 _ hx')
    · subst hx'; exact absurd hlex (lex_irrefl _)
    · exact absurd (lex_trans hlex (hs.2.1.1 _ hx')) (lex_irrefl _)

theorem lex_total (a b : List Nat) : Lex a b ∨ a = b ∨ Lex b a := by
  induction a generalizing b with
  | nil => cases b with
    | nil => exact .inr (.inl rfl)
    | cons => exact .inl trivial
  | cons x xs ih =>
    cases b with
    | nil => exact .inr (.inr trivial)
    | cons y ys =>
      rcases Nat.lt_trichotomy x y with h | h | h
      · exact .inl (.inl h)
      · subst h
        rcases ih ys with h | h | h
        · exact .inl (.inr ⟨rfl, h⟩)
        · exact .inr (.inl (by rw [h]))
        · exact .inr (.inr (.inr ⟨rfl, h⟩))
      · exact .inr (.inr (.inl h))

/-- A sequence of choices leads to one target only. -/
theorem des_unique {dis : Id → Bool} {p : Path} {toks : List Str} {cs : List Nat} {x y : Target} (h1 : Enabled dis p)
    (hx : Des dis p toks cs x) (hy : Des dis p toks cs y) : x = y := by
  have hx' := (mem_cands dis toks p (cs, x)).2 ⟨h1, hx⟩
  have hy' := (mem_cands dis toks p (cs, y)).2 ⟨h1, hy⟩
  have hs := sorted_cands dis toks p
  generalize cands dis toks p = L at *
  induction L with
  | nil => simp at hx'
  | cons z L ih =>
    rw [List.pairwise_cons] at hs
    rw [List.mem_cons] at hx' hy'
    rcases hx' with hx' | hx' <;> rcases hy' with hy' | hy'
    · rw [← hx'] at hy'; cases hy'; rfl
    · subst hx'; exact absurd (hs.1 _ hy') (lex_irrefl _)
    · subst hy'; exact absurd (hs.1 _ hx') (lex_irrefl _)
    · exact ih hx' hy' hs.2

theorem chosen_unique {p : Platform} {dis : Id → Bool} {path : Path} {toks : List Str} {x y : Target} (hx : Chosen p dis path toks x)
    (hy : Chosen p dis path toks y) : x = y := by
  obtain ⟨he, cs, h1, h2, h3⟩ := hx
  obtain ⟨_, cs', k1, k2, k3⟩ := hy
  rcases lex_total cs cs' with h | h | h
  · exact absurd (k3 _ _ h1 h) h2
  · subst h; exact des_unique he h1 k1
  · exact absurd (h3 _ _ k1 h) k2

/-! ### `Feed` of such a line -/

/-- After a handler that ended with `x`. -/
def afterHandler (line : Str) (x : Option Exn) (w : World σ τ) : World σ τ × Option Exn :=
  match x with
  | none => (w, none)
  | some .other =>
    ((w.note (.unknown line)).put (bs!"Cli. Unknown exception caught handling command line \"" ++ line ++ bs!"\"\n"), none)
  | some e => reportException A line e w

theorem catchAll_eq (line : Str) (w : World σ τ) (x : Option Exn) :
    catchAll A line (match x with
      | none => .ok (w, .found)
      | some e => .ok (w, .thrown e)) = .ok (afterHandler A line x w) := by
  cases x with
  | none => rfl
  | some e => cases e <;> rfl

/-- The state in which a line is searched in the menus. -/
def World.entered (w : World σ τ) (h : History.History) : World σ τ := { w with hist := h }

theorem enabled_ne_nil {dis : Id → Bool} {p : Path} (h : Enabled dis p) : p ≠ [] := by
  rintro rfl; exact h

theorem walk_ne_nil {dis : Id → Bool} {p q : Path} {ws : List Str} (h : Walk dis p ws q) : p ≠ [] → q ≠ [] := by
  induction h with
  | stay p => exact id
  | step h _ ih => intro _; exact ih (by cases h <;> simp)

theorem feed_cases {line : Str} {toks : List Str} (hl : Lex.Line line toks) (ht : UserLine A.plat toks) (fuel : Nat)
    (w : World σ τ) {h : History.History} (hh : History.newCommand w.hist line = .ok h) {path : Path}
    (hp : w.tree.locate w.current = some path) (hc : CleanLine A.plat w.dis path toks) :
    ((∀ c args vals, DesignatesCmd w.dis path toks c args → ¬ Accepts A.plat c args vals) ∧ (∀ q, ¬ DesignatesMenu w.dis path toks q) ∧
      feed A (fuel + 1) line w =
        .ok (afterHandler A line (wrongCommand A line (w.entered h)).2 (wrongCommand A line (w.entered h)).1)) ∨
    (∃ m k q, Chosen A.plat w.dis path toks (.menu ((m, k) :: q)) ∧
      feed A (fuel + 1) line w = .ok ({ w.entered h with current := m.id }, none)) ∨
    (∃ c args vals, Chosen A.plat w.dis path toks (.cmd c args) ∧ Accepts A.plat c args vals ∧
      (¬ c.Swallows (A.handler c.fn w.app vals).exn → feed A (fuel + 1) line w = .ok (afterHandler A line (A.handler c.fn w.app vals).exn
        (((w.entered h).effect (A.handler c.fn w.app vals)).note (.ran c vals w.snap (A.handler c.fn w.app vals).exn))))) := by
  rw [feed_user A hl ht fuel w hh]
  have hs : scanCurrent A toks (w.entered h) = scanCmds A toks path (w.entered h) := by
    simp only [scanCurrent, World.entered, hp]
  show _ ∨ (∃ m k q, _ ∧ catchAll A line (userPart A line toks (w.entered h)) = _) ∨ _
  have hu : ∀ r, scanCmds A toks path (w.entered h) = r → userPart A line toks (w.entered h) = match r with
    | .ok (w, .notFound) =>
      match wrongCommand A line w with
      | (w, none) => .ok (w, .found)
      | (w, some e) => .ok (w, .thrown e)
    | r => r := by
    intro r hr
    rw [← hr, ← hs]; rfl
  rcases search_cases A (w.entered h) toks ht.nonempty path hc with ⟨h1, h2, h3⟩ | ⟨x, h1, h2⟩
  · refine .inl ⟨h1, h2, ?_⟩
    show catchAll A line (userPart A line toks (w.entered h)) = _
    rw [hu _ h3, ← catchAll_eq]
    simp only
    cases hw : wrongCommand A line (w.entered h) with
    | mk w' x => cases x <;> rfl
  · cases x with
    | menu q =>
      cases q with
      | nil =>
        obtain ⟨he, cs, hd, _⟩ := h1
        exact absurd rfl (walk_ne_nil (des_walk hd).2 (enabled_ne_nil he))
      | cons mk q =>
        obtain ⟨m, k⟩ := mk
        refine .inr (.inl ⟨m, k, q, h1, ?_⟩)
        rw [hu _ (h2 (by simp [take]))]; rfl
    | cmd c args =>
      have hd : DesignatesCmd w.dis path toks c args := by
        obtain ⟨he, cs, hd, _⟩ := h1
        exact (designatesCmd_iff _ _ _ _ _).2 ⟨cs, (mem_cands _ _ _ _).2 ⟨he, hd⟩⟩
      rcases verdict_clean A.plat c args (hc c args hd) with ⟨_, hr⟩ | ⟨vals, hv, ha⟩
      · obtain ⟨_, cs, _, hn, _⟩ := h1
        exact absurd hr hn
      · refine .inr (.inr ⟨c, args, vals, h1, ha, fun hsw => ?_⟩)
        have hpf := perform_run' A c args vals (w.entered h) hv hsw
        have h3 : scanCmds A toks path (w.entered h) = perform A c args (w.entered h) := by
          apply h2
          intro w'
          show perform A c args (w.entered h) ≠ _
          rw [hpf]
          split <;> simp
        show catchAll A line (userPart A line toks (w.entered h)) = _
        rw [hu _ h3, hpf, ← catchAll_eq]
        have e1 : (w.entered h).app = w.app := rfl
        have e2 : (w.entered h).snap = w.snap := rfl
        rw [e1, e2]
        generalize (A.handler c.fn w.app vals).exn = x
        cases x <;> rfl

end
end Verif
