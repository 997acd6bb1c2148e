import Verif.Model.Session
import Verif.Proofs.Cands

set_option linter.unusedSimpArgs false

/-!
# Executing one command
-/

namespace Verif
open Spec
open FromString (Value ConvErr)

variable {σ τ : Type}

/-- No command handler throws `std::bad_cast`. -/
def App.NoBadCast (A : App σ τ) : Prop := ∀ fn s vals what, (A.handler fn s vals).exn ≠ some (.badCast what)

/-! ### Conversion of the arguments -/

theorem convert_fits (p : Platform) (ps : List Param) : ∀ (args : List Str) (vals : List Value),
    convert p ps args = .ok vals ↔ Fits p ps args vals := by
  induction ps with
  | nil =>
    intro args vals
    cases args with
    | nil =>
      simp only [convert, Except.ok.injEq]
      constructor
      · rintro rfl; exact .nil
      · intro h; cases h; rfl
    | cons a as =>
      simp only [convert]
      constructor
      · intro h; cases h
      · intro h; cases h
  | cons q qs ih =>
    intro args vals
    cases args with
    | nil =>
      simp only [convert]
      constructor
      · intro h; cases h
      · intro h; cases h
    | cons a as =>
      simp only [convert, bind, Except.bind, pure, Except.pure]
      constructor
      · intro h
        cases h1 : FromString.fromString p q.ty a with
        | error e => simp [h1] at h
        | ok v =>
          simp only [h1] at h
          cases h2 : convert p qs as with
          | error e => simp [h2] at h
          | ok vs =>
            simp only [h2, Except.ok.injEq] at h
            subst h
            exact .cons h1 ((ih as vs).1 h2)
      · intro h
        cases h with
        | cons h1 h2 => rw [h1]; simp only; rw [(ih _ _).2 h2]

/-- What becomes of a command whose name matches: its arguments are rejected, or they convert, or converting them throws or is
    undefined. -/
inductive Verdict where
  | reject
  | run (vals : List Value)
  | raise (e : Exn)
  | crash (u : UB)

def verdict (p : Platform) (c : Cmd) (args : List Str) : Verdict :=
  match c.kind with
  | .variadic ps =>
    if args.length ≠ ps.length then .reject
    else match convert p ps args with
      | .ok vals => .run vals
      | .error .bad => .reject
      | .error (.exn (.badCast _)) => .reject
      | .error (.exn e) => .raise e
      | .error (.ub u) => .crash u
  | .freeform => .run (args.map .str)

theorem verdict_run (p : Platform) (c : Cmd) (args : List Str) (vals : List Value) :
    verdict p c args = .run vals ↔ Accepts p c args vals := by
  unfold verdict Accepts
  cases hk : c.kind with
  | freeform => simp [eq_comm]
  | variadic ps =>
    simp only
    constructor
    · intro h
      split at h
      · cases h
      · cases hc : convert p ps args with
        | ok vs => simp [hc] at h; subst h; exact (convert_fits _ _ _ _).1 hc
        | error e => rw [hc] at h; cases e with
          | bad => simp at h
          | ub u => simp at h
          | exn e => cases e <;> simp at h
    · intro h
      have hc := (convert_fits _ _ _ _).2 h
      have hl : args.length = ps.length := by
        clear hc hk
        induction h with
        | nil => rfl
        | cons _ _ ih => simp [ih]
      simp [hl, hc]

theorem accepts_unique {p : Platform} {c : Cmd} {args : List Str} {v1 v2 : List Value} (h1 : Accepts p c args v1) (h2 : Accepts p c args v2) :
    v1 = v2 := by
  have := (verdict_run p c args v1).2 h1
  rw [(verdict_run p c args v2).2 h2] at this
  cases this; rfl

section
variable (A : App σ τ)

/-- The rest of `Exec` after its name has matched. -/
def perform (c : Cmd) (args : List Str) (w : World σ τ) : Res σ τ :=
  match verdict A.plat c args with
  | .reject => .ok (w, .notFound)
  | .raise e => .ok (w, .thrown e)
  | .crash u => .error (.ub u)
  | .run vals =>
    match callHandler A c vals w, c.kind with
    | (w', none), _ => .ok (w', .found)
    | (w', some (.badCast _)), .variadic _ => .ok (w', .notFound)
    | (w', some e), _ => .ok (w', .thrown e)

theorem execCmd_eq (c : Cmd) (t : Str) (args : List Str) (w : World σ τ) :
    execCmd A c (t :: args) w = if w.dis c.id = false ∧ c.name = t then perform A c args w else .ok (w, .notFound) := by
  unfold execCmd perform verdict
  by_cases hd : w.dis c.id = true
  · simp [hd]
  · have hd' : w.dis c.id = false := by simpa using hd
    cases hk : c.kind with
    | freeform =>
      simp only [hd', Bool.false_eq_true, if_false, true_and]
      by_cases hn : c.name = t
      · simp only [hn, if_true]
        cases hc : callHandler A c (args.map Value.str) w with
        | mk w' x => cases x with
          | none => rfl
          | some e => cases e <;> rfl
      · simp [hn]
    | variadic ps =>
      simp only [hd', Bool.false_eq_true, if_false, true_and, List.length_cons]
      by_cases hl : args.length = ps.length
      · simp only [hl, ne_eq, not_true_eq_false, if_false]
        by_cases hn : c.name = t
        · simp only [hn, if_true]
          cases hcv : convert A.plat ps args with
          | ok vals =>
            simp only
            cases hc : callHandler A c vals w with
            | mk w' x => cases x with
              | none => rfl
              | some e => cases e <;> rfl
          | error e => cases e with
            | bad => rfl
            | ub u => rfl
            | exn e => cases e <;> rfl
        · simp [hn]
      · have : ¬ (args.length + 1 = ps.length + 1) := by omega
        simp [hl, this]

/-! ### Which designation is taken -/

/-- The arguments are rejected (too many, too few, or one does not convert). -/
def Rejected (p : Platform) (x : Cand) : Prop := ∃ c args, x.2 = .cmd c args ∧ verdict p c args = .reject

/-- What the search does with the designation it takes. -/
def take (t : Target) (w : World σ τ) : Res σ τ :=
  match t with
  | .menu [] => .ok (w, .notFound)
  | .menu ((m, _) :: _) => .ok ({ w with current := m.id }, .found)
  | .cmd c args => perform A c args w

end
end Verif
