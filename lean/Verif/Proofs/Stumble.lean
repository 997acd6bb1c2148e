import Verif.Proofs.FromString
import Verif.Spec.Stumble

/-! Helper lemmas: exactly when the conversion of a token is undefined. -/

set_option linter.unusedSimpArgs false

namespace Verif.FromString
open Number Spec

theorem ctypeUB_iff (p : Platform) (c : Byte) : p.ctypeUB c = true ↔ Forbidden p c := by
  simp [Platform.ctypeUB, Forbidden, and_assoc]

theorem not_digit_of_ub {p : Platform} {c : Byte} (h : p.ctypeUB c = true) : ¬ Digit c := by
  intro hd
  rw [digit_not_ub p ((isDigit_iff c).2 hd)] at h
  cases h

theorem digitsLoop_ub (p : Platform) (w : Width) (s : Str) (r : Nat) (hr : r < w.card) :
    digitsLoop p w r s = .error (.ub .ctype) ↔
      ∃ ds c rest, s = ds ++ c :: rest ∧ (∀ d ∈ ds, Digit d) ∧ r * 10 ^ ds.length + value ds < w.card ∧ p.ctypeUB c = true := by
  induction s generalizing r with
  | nil => simp [digitsLoop]
  | cons a as ih =>
    by_cases hu : p.ctypeUB a = true
    · simp only [digitsLoop, isdigit, hu, bind, Except.bind, if_true, true_iff]
      exact ⟨[], a, as, rfl, by simp, by simpa [value] using hr, hu⟩
    · by_cases hd : isDigit a = true
      · have h9 : a.toNat - 48 ≤ 9 := by simp [isDigit] at hd; omega
        have ha : Digit a := (isDigit_iff a).1 hd
        simp only [digitsLoop, isdigit, digit_not_ub p hd, hd, bind, Except.bind, Bool.not_true, Bool.false_eq_true,
          if_false, pure, Except.pure, digitStep_eq w r _ hr h9]
        have arith : ∀ ds : Str, (r * 10 + (a.toNat - 48)) * 10 ^ ds.length + value ds = r * 10 ^ (a :: ds).length + value (a :: ds) := by
          intro ds
          simp only [List.length_cons, value, Nat.pow_succ, Nat.add_mul]
          rw [Nat.mul_assoc r 10, Nat.mul_comm 10 (10 ^ ds.length)]
          omega
        by_cases hlt : r * 10 + (a.toNat - 48) < w.card
        · simp only [hlt, if_true]
          rw [ih _ hlt]
          constructor
          · rintro ⟨ds, c, rest, rfl, h1, h2, h3⟩
            refine ⟨a :: ds, c, rest, rfl, ?_, by rw [← arith]; exact h2, h3⟩
            intro d hm
            rcases List.mem_cons.1 hm with rfl | hm
            · exact ha
            · exact h1 d hm
          · rintro ⟨ds, c, rest, he, h1, h2, h3⟩
            cases ds with
            | nil =>
              simp only [List.nil_append, List.cons.injEq] at he
              rw [← he.1] at h3; exact absurd h3 hu
            | cons d ds =>
              simp only [List.cons_append, List.cons.injEq] at he
              obtain ⟨rfl, rfl⟩ := he
              exact ⟨ds, c, rest, rfl, fun x hx => h1 x (List.mem_cons_of_mem _ hx), by rw [arith]; exact h2, h3⟩
        · simp only [hlt, if_false, Except.error.injEq, reduceCtorEq, false_iff]
          rintro ⟨ds, c, rest, he, h1, h2, h3⟩
          cases ds with
          | nil =>
            simp only [List.nil_append, List.cons.injEq] at he
            rw [← he.1] at h3; exact absurd h3 hu
          | cons d ds =>
            simp only [List.cons_append, List.cons.injEq] at he
            obtain ⟨rfl, rfl⟩ := he
            rw [← arith] at h2
            have : r * 10 + (a.toNat - 48) ≤ (r * 10 + (a.toNat - 48)) * 10 ^ ds.length :=
              Nat.le_mul_of_pos_right _ (Nat.pow_pos (by decide))
            omega
      · simp only [digitsLoop, isdigit, hu, hd, bind, Except.bind, throw, throwThe, MonadExceptOf.throw, Bool.not_false, Bool.false_eq_true, if_false, if_true, Except.error.injEq,
          reduceCtorEq, false_iff]
        rintro ⟨ds, c, rest, he, h1, h2, h3⟩
        cases ds with
        | nil =>
          simp only [List.nil_append, List.cons.injEq] at he
          rw [← he.1] at h3; exact absurd h3 hu
        | cons d ds =>
          simp only [List.cons_append, List.cons.injEq] at he
          rw [he.1] at hd
          exact hd ((isDigit_iff d).2 (h1 d List.mem_cons_self))

theorem unsignedDigits_ub (p : Platform) (w : Width) (s : Str) :
    unsignedDigits p w s = .error (.ub .ctype) ↔ Stumbles p w.card s := by
  unfold unsignedDigits
  have key := digitsLoop_ub p w s 0 (card_pos w)
  simp only [Nat.zero_mul, Nat.zero_add, ctypeUB_iff] at key
  split
  · rename_i h
    subst h
    simp [Stumbles]
  · exact key

/-- The bytes before the forbidden one decide whether there is a sign in front. -/
theorem not_stumbles_sign {p : Platform} {b : Nat} {c : Byte} {cs : Str} (h : c = b%'+' ∨ c = b%'-') : ¬ Stumbles p b (c :: cs) := by
  rintro ⟨ds, d, rest, he, h1, _, _, h2, _⟩
  cases ds with
  | nil =>
    simp only [List.nil_append, List.cons.injEq] at he
    rw [← he.1] at h2
    rcases h with rfl | rfl <;> revert h2 <;> decide
  | cons x ds =>
    simp only [List.cons_append, List.cons.injEq] at he
    have := h1 x List.mem_cons_self
    rw [← he.1] at this
    rcases h with rfl | rfl <;> revert this <;> unfold Digit <;> decide

theorem unsigned_ub (p : Platform) (w : Width) (s : Str) :
    unsignedFromString p w s = .error (.ub .ctype) ↔ ∃ t, (s = t ∨ s = b%'+' :: t) ∧ Stumbles p w.card t := by
  cases s with
  | nil =>
    simp only [unsignedFromString, Except.error.injEq, reduceCtorEq, false_iff]
    rintro ⟨t, rfl | h, ds, c, rest, he, _⟩
    · cases ds <;> cases he
    · cases h
  | cons c cs =>
    simp only [unsignedFromString]
    split
    · rename_i hc
      rw [unsignedDigits_ub]
      constructor
      · intro h; exact ⟨cs, .inr (by rw [hc]), h⟩
      · rintro ⟨t, rfl | h, ht⟩
        · exact absurd ht (not_stumbles_sign (.inl hc))
        · cases h; exact ht
    · rename_i hc
      rw [unsignedDigits_ub]
      constructor
      · intro h; exact ⟨_, .inl rfl, h⟩
      · rintro ⟨t, rfl | h, ht⟩
        · exact ht
        · cases h; exact absurd rfl hc

theorem posPart_ub (w : Width) (x : Except ConvErr Nat) (u : UB) :
    (do let v ← x
        if v > w.card / 2 - 1 then throw ConvErr.bad
        return toSigned w v : Except ConvErr Int) = .error (.ub u) ↔ x = .error (.ub u) := by
  cases x with
  | error e => simp [bind, Except.bind]
  | ok v =>
    simp only [bind, Except.bind, throw, throwThe, MonadExceptOf.throw, pure, Except.pure, reduceCtorEq, iff_false]
    split <;> simp

theorem negPart_ub (p : Platform) (w : Width) (x : Except ConvErr Nat) (hx : ∀ v, x = .ok v → v < w.card) :
    (do let val ← x
        let m ← negate p w (-((w.card / 2 : Nat) : Int))
        if val > toUnsigned w m then throw ConvErr.bad
        let r ← negate p w (toSigned w val)
        return toSigned w (toUnsigned w r) : Except ConvErr Int) = .error (.ub .ctype) ↔ x = .error (.ub .ctype) := by
  cases x with
  | error e => simp [bind, Except.bind]
  | ok v =>
    simp only [reduceCtorEq, iff_false]
    by_cases hp : p.strictOverflow = false ∨ w.narrow = true
    · have := neg_part p w hp v (hx v rfl)
      simp only [bind, Except.bind] at this ⊢
      rw [this]
      split <;> simp
    · simp only [not_or, Bool.not_eq_false, Bool.not_eq_true] at hp
      simp [bind, Except.bind, negate, hp.1, hp.2]

theorem signed_ub (p : Platform) (w : Width) (s : Str) :
    signedFromString p w s = .error (.ub .ctype) ↔ ∃ t, (s = t ∨ s = b%'+' :: t ∨ s = b%'-' :: t) ∧ Stumbles p w.card t := by
  cases s with
  | nil =>
    simp only [signedFromString, Except.error.injEq, reduceCtorEq, false_iff]
    rintro ⟨t, rfl | h | h, ds, c, rest, he, _⟩
    · cases ds <;> cases he
    · cases h
    · cases h
  | cons c cs =>
    simp only [signedFromString]
    by_cases hm : c = b%'-'
    · rw [if_pos hm, negPart_ub p w _ (fun v h => ((unsignedDigits_ok p w cs v).1 h).2.2), unsignedDigits_ub]
      constructor
      · intro h; exact ⟨cs, .inr (.inr (by rw [hm])), h⟩
      · rintro ⟨t, rfl | h | h, ht⟩
        · exact absurd ht (not_stumbles_sign (.inr hm))
        · cases h; cases hm
        · cases h; exact ht
    · rw [if_neg hm]
      by_cases hc : c = b%'+'
      · rw [if_pos hc]
        refine (posPart_ub w (unsignedDigits p w cs) .ctype).trans ?_
        rw [unsignedDigits_ub]
        constructor
        · intro h; exact ⟨cs, .inr (.inl (by rw [hc])), h⟩
        · rintro ⟨t, rfl | h | h, ht⟩
          · exact absurd ht (not_stumbles_sign (.inl hc))
          · cases h; exact ht
          · cases h; exact absurd rfl hm
      · rw [if_neg hc]
        refine (posPart_ub w (unsignedDigits p w (c :: cs)) .ctype).trans ?_
        rw [unsignedDigits_ub]
        constructor
        · intro h; exact ⟨_, .inl rfl, h⟩
        · rintro ⟨t, rfl | h | h, ht⟩
          · exact ht
          · cases h; exact absurd rfl hc
          · cases h; exact absurd rfl hm

theorem signed_overflow_iff (p : Platform) (w : Width) (s : Str) :
    signedFromString p w s = .error (.ub .signedOverflow) ↔ p.strictOverflow = true ∧ w.narrow = false ∧ Negative w.card s := by
  constructor
  · intro h
    rcases signed_error p w s h with h1 | ⟨h1, _⟩ | ⟨_, h2, h3, h4⟩
    · cases h1
    · cases h1
    · refine ⟨h2, h3, ?_⟩
      cases s with
      | nil => cases h4
      | cons c cs =>
        simp only [List.head?_cons, Option.some.injEq] at h4
        subst h4
        cases hu : unsignedDigits p w cs with
        | error e =>
          simp only [signedFromString, if_true, hu, bind, Except.bind, Except.error.injEq] at h
          subst h
          rcases unsignedDigits_error p w cs hu with h | ⟨h, _⟩ <;> cases h
        | ok v =>
          obtain ⟨h5, rfl, h6⟩ := (unsignedDigits_ok p w cs v).1 hu
          exact ⟨cs, rfl, h5, h6⟩
  · rintro ⟨h1, h2, ds, rfl, h3, h4⟩
    exact signed_overflow p w h1 h2 ds h3 h4

theorem bool_ub (p : Platform) (s : Str) (u : UB) : boolFromString p s = .error (.ub u) ↔ signedFromString p .w64 s = .error (.ub u) := by
  unfold boolFromString
  split
  · rename_i h; subst h
    have : signedFromString p .w64 bs!"true" = .error .bad := by
      cases hc : p.charSigned <;> simp [signedFromString, unsignedDigits, digitsLoop, isdigit, Platform.ctypeUB, isDigit, bind, Except.bind, throw, throwThe, MonadExceptOf.throw]
    simp [this]
  · split
    · rename_i h; subst h
      have : signedFromString p .w64 bs!"false" = .error .bad := by
        cases hc : p.charSigned <;> simp [signedFromString, unsignedDigits, digitsLoop, isdigit, Platform.ctypeUB, isDigit, bind, Except.bind, throw, throwThe, MonadExceptOf.throw]
      simp [this]
    · cases hs : signedFromString p .w64 s with
      | error e => simp [bind, Except.bind]
      | ok v =>
        simp only [bind, Except.bind, pure, Except.pure, throw, throwThe, MonadExceptOf.throw, reduceCtorEq, iff_false]
        split
        · simp
        · split <;> simp

theorem anySpace_ub (p : Platform) (s : Str) : anySpace p s = .error (.ub .ctype) ↔ StumblesUnspaced p s := by
  induction s with
  | nil => simp [anySpace, StumblesUnspaced]
  | cons a as ih =>
    simp only [anySpace]
    by_cases hu : p.ctypeUB a = true
    · simp only [hu, if_true, true_iff]
      exact ⟨[], a, as, rfl, by simp, (ctypeUB_iff p a).1 hu⟩
    · rw [if_neg hu, isSpace_eq]
      by_cases hb : blank a = true
      · simp only [hb, if_true, reduceCtorEq, false_iff]
        rintro ⟨ds, c, rest, he, h1, h2⟩
        cases ds with
        | nil =>
          simp only [List.nil_append, List.cons.injEq] at he
          rw [← he.1, ← ctypeUB_iff] at h2; exact hu h2
        | cons d ds =>
          simp only [List.cons_append, List.cons.injEq] at he
          have := h1 d List.mem_cons_self
          rw [← he.1, hb] at this; cases this
      · rw [if_neg hb, ih]
        constructor
        · rintro ⟨ds, c, rest, rfl, h1, h2⟩
          refine ⟨a :: ds, c, rest, rfl, ?_, h2⟩
          intro d hm
          rcases List.mem_cons.1 hm with rfl | hm
          · simpa using hb
          · exact h1 d hm
        · rintro ⟨ds, c, rest, he, h1, h2⟩
          cases ds with
          | nil =>
            simp only [List.nil_append, List.cons.injEq] at he
            rw [← he.1, ← ctypeUB_iff] at h2; exact absurd h2 hu
          | cons d ds =>
            simp only [List.cons_append, List.cons.injEq] at he
            obtain ⟨rfl, rfl⟩ := he
            exact ⟨ds, c, rest, rfl, fun x hx => h1 x (List.mem_cons_of_mem _ hx), h2⟩

theorem float_ub (p : Platform) (k : Nat) (s : Str) (u : UB) : floatFromString p k s = .error (.ub u) ↔ anySpace p s = .error (.ub u) := by
  unfold floatFromString
  cases hs : anySpace p s with
  | error e => simp [bind, Except.bind]
  | ok b =>
    simp only [bind, Except.bind, pure, Except.pure, throw, throwThe, MonadExceptOf.throw, reduceCtorEq, iff_false]
    cases b
    · simp only [Bool.false_eq_true, if_false]
      split
      · simp
      · split <;> simp
    · simp

end Verif.FromString
