import Verif.Proofs.FeedSound

set_option linter.unusedSimpArgs false

/-!
# `Feed` in parts, for invariants and faults
-/

namespace Verif
open Spec
open FromString (Value ConvErr)

variable {σ τ : Type}

section
variable (A : App σ τ)

abbrev Feeder (σ τ : Type) := Str → World σ τ → Except Fault (World σ τ × Option Exn)

/-- The built-in command `exit`. -/
def exitPart (w : World σ τ) : Res σ τ :=
  match exitSession A (w.note (.builtin .exit)) with
  | .error f => .error f
  | .ok (w, x) => .ok (w, builtinOutcome x)

/-- The built-in command `help`. -/
def helpPart (w : World σ τ) : Res σ τ :=
  match helpCmd (w.note (.builtin .help)) with
  | .error f => .error f
  | .ok w => .ok (w, .found)

/-- The built-in command `history`. -/
def historyPart (w : World σ τ) : Res σ τ :=
  .ok ((w.note (.builtin .history)).put (HistoryList.render (History.listing w.hist)), .found)

/-- The built-in command `!`. -/
def bangPart (fd : Feeder σ τ) (n : Nat) (w : World σ τ) : Res σ τ :=
  match History.forgetLatest w.hist with
  | .error f => .error f
  | .ok h =>
    match History.at h n with
    | .error f => .error f
    | .ok none => .ok ({ w.note (.builtin (.bang n)) with hist := h }, .thrown (.std bs!"Index not found in history"))
    | .ok (some cmd) =>
      match fd cmd { w.note (.builtin (.bang n)) with hist := h } with
      | .error f => .error f
      | .ok (w, x) => .ok (w, builtinOutcome x)

theorem scanGlobal_bang (fd : Feeder σ τ) (w : World σ τ) {arg : Str} {n : Nat} (h1 : Number.SpellsNat arg n) (h2 : n < 2 ^ 32) :
    scanGlobal A fd [bs!"!", arg] w = bangPart fd n w := by
  have hu : FromString.unsignedFromString A.plat .w32 arg = .ok n := (FromString.unsigned_ok _ _ _ _).2 ⟨h1, h2⟩
  simp only [scanGlobal, if_true, hu, bind, Except.bind, bangPart, World.note]
  cases History.forgetLatest w.hist with
  | error f => rfl
  | ok h =>
    simp only
    cases History.at h n with
    | error f => rfl
    | ok r => cases r with
      | none => rfl
      | some cmd =>
        simp only
        cases fd cmd _ with
        | error f => rfl
        | ok v => rfl

theorem scanGlobal_cases (fd : Feeder σ τ) (toks : List Str) (ht : toks ≠ []) (w : World σ τ) :
    ((∀ b, ¬ GlobalLine toks b) ∧ scanGlobal A fd toks w = .ok (w, .notFound)) ∨
    ((∀ b, ¬ GlobalLine toks b) ∧ scanGlobal A fd toks w = .error (.ub .ctype) ∧ ∃ arg, toks = [bs!"!", arg] ∧ ∃ c ∈ arg, A.plat.ctypeUB c = true) ∨
    (toks = [bs!"help"] ∧ scanGlobal A fd toks w = helpPart w) ∨
    (toks = [bs!"exit"] ∧ scanGlobal A fd toks w = exitPart A w) ∨
    (toks = [bs!"history"] ∧ scanGlobal A fd toks w = historyPart w) ∨
    (∃ arg n, toks = [bs!"!", arg] ∧ Number.SpellsNat arg n ∧ n < 2 ^ 32 ∧ scanGlobal A fd toks w = bangPart fd n w) := by
  match toks, ht with
  | [], ht => exact absurd rfl ht
  | [t], ht =>
    by_cases h1 : t = bs!"help"
    · subst h1
      refine .inr (.inr (.inl ⟨rfl, ?_⟩))
      simp only [scanGlobal, if_true, bind, Except.bind, helpPart]
      cases helpCmd (w.note (.builtin .help)) <;> rfl
    · by_cases h2 : t = bs!"exit"
      · subst h2
        refine .inr (.inr (.inr (.inl ⟨rfl, ?_⟩)))
        simp only [scanGlobal, if_neg h1, if_true, bind, Except.bind, exitPart]
        cases exitSession A (w.note (.builtin .exit)) <;> rfl
      · by_cases h3 : t = bs!"history"
        · subst h3
          refine .inr (.inr (.inr (.inr (.inl ⟨rfl, ?_⟩))))
          simp only [scanGlobal, if_neg h1, if_neg h2, if_true, historyPart, History.show_eq]
        · refine .inl ⟨?_, ?_⟩
          · intro b hb
            cases hb
            · exact h1 rfl
            · exact h2 rfl
            · exact h3 rfl
          · simp only [scanGlobal, if_neg h1, if_neg h2, if_neg h3]
  | [t, arg], ht =>
    by_cases hb : t = bs!"!"
    · subst hb
      cases hu : FromString.unsignedFromString A.plat .w32 arg with
      | ok n =>
        obtain ⟨h1, h2⟩ := (FromString.unsigned_ok _ _ _ _).1 hu
        exact .inr (.inr (.inr (.inr (.inr ⟨arg, n, rfl, h1, h2, scanGlobal_bang A fd w h1 h2⟩))))
      | error e =>
        have hng : ∀ b, ¬ GlobalLine [bs!"!", arg] b := by
          intro b hb
          cases hb with
          | bang h1 h2 => rw [(FromString.unsigned_ok A.plat .w32 _ _).2 ⟨h1, h2⟩] at hu; cases hu
        rcases FromString.unsigned_error _ _ _ hu with rfl | ⟨rfl, c, hc, hx⟩
        · refine .inl ⟨hng, ?_⟩
          simp only [scanGlobal, if_true, hu]
        · refine .inr (.inl ⟨hng, ?_, arg, rfl, c, hc, hx⟩)
          simp only [scanGlobal, if_true, hu]
    · refine .inl ⟨?_, ?_⟩
      · intro b hg; cases hg; exact hb rfl
      · simp only [scanGlobal, if_neg hb]
  | t1 :: t2 :: t3 :: ts, ht =>
    refine .inl ⟨?_, rfl⟩
    intro b hg; cases hg

/-- What happens after a line has been split and recorded. -/
def body (fd : Feeder σ τ) (line : Str) (toks : List Str) (w : World σ τ) : Res σ τ :=
  match scanGlobal A fd toks w with
  | .ok (w, .notFound) => userPart A line toks w
  | r => r

theorem feed_eq {line : Str} {toks : List Str} (hl : Lex.Line line toks) (ht : toks ≠ []) (fuel : Nat) (w : World σ τ) :
    feed A (fuel + 1) line w =
      match History.newCommand w.hist line with
      | .error f => .error f
      | .ok h => catchAll A line (body A (feed A fuel) line toks (w.entered h)) := by
  simp only [feed, (split_iff _ _).2 hl, bind, Except.bind, ht, if_false]
  cases History.newCommand w.hist line with
  | error f => rfl
  | ok h => rfl

theorem feed_blank {line : Str} (hl : Lex.Line line []) (fuel : Nat) (w : World σ τ) : feed A (fuel + 1) line w = .ok (w, none) := by
  simp [feed, (split_iff _ _).2 hl, bind, Except.bind]

theorem line_exists (line : Str) : ∃ toks, Lex.Line line toks := Split.line_total line

end
end Verif
