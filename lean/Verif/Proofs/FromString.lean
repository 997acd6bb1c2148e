import Verif.Model.FromString
import Verif.Spec.Number
import Verif.Proofs.Space

/-! Helper lemmas for token conversion. -/

set_option linter.unusedSimpArgs false

namespace Verif.FromString
open Verif.Number

theorem isDigit_iff (c : Byte) : isDigit c = true ↔ Digit c := by
  simp [isDigit, Digit, UInt8.le_iff_toNat_le]

theorem digit_not_ub (p : Platform) {c : Byte} (h : isDigit c = true) : p.ctypeUB c = false := by
  simp [isDigit, Platform.ctypeUB] at *
  intro _ h2; omega

theorem tdiv_nonpos {x : Int} (h : x < 0) : Int.tdiv x 10 ≤ 0 := by
  have := Int.neg_tdiv (a := -x) (b := 10)
  rw [Int.neg_neg] at this
  rw [this, Int.tdiv_eq_ediv_of_nonneg (by omega)]
  omega

theorem digitStep_eq (w : Width) (r d : Nat) (hr : r < w.card) (hd : d ≤ 9) :
    digitStep w r d = if r * 10 + d < w.card then .ok (r * 10 + d) else .error .bad := by
  unfold digitStep
  by_cases h2 : r * 10 + d < w.card
  · rw [if_pos h2, Nat.mod_eq_of_lt h2]
    have hback : (if w.narrow = true then Int.tdiv (((r * 10 + d : Nat) : Int) - d) 10
        else (((r * 10 + d + (w.card - d)) % w.card / 10 : Nat) : Int)) = r := by
      split
      · rw [Int.tdiv_eq_ediv_of_nonneg (by omega)]; omega
      · cases w <;> simp only [Width.card] at * <;> omega
    simp only [hback]
    rw [if_neg (by omega)]
  · rw [if_neg h2, if_pos]
    by_cases hn : w.narrow = true
    · simp only [hn, if_true]
      by_cases h0 : (0 : Int) ≤ (((r * 10 + d) % w.card : Nat) : Int) - d
      · rw [Int.tdiv_eq_ediv_of_nonneg h0]
        cases w <;> simp only [Width.card, Width.narrow] at * <;> omega
      · have := tdiv_nonpos (by omega : (((r * 10 + d) % w.card : Nat) : Int) - d < 0)
        left
        cases w <;> simp only [Width.card, Width.narrow] at * <;> omega
    · simp only [hn]
      cases w <;> simp only [Width.card, Width.narrow, Bool.false_eq_true, if_false] at * <;> omega

theorem digitsLoop_ok (p : Platform) (w : Width) (s : Str) (r v : Nat) (hr : r < w.card) :
    digitsLoop p w r s = .ok v ↔
      (∀ c ∈ s, Digit c) ∧ v = r * 10 ^ s.length + value s ∧ v < w.card := by
  induction s generalizing r with
  | nil => simp [digitsLoop, value]; constructor
           · rintro rfl; exact ⟨rfl, hr⟩
           · rintro ⟨rfl, _⟩; rfl
  | cons c cs ih =>
    by_cases hd : isDigit c = true
    · have hD := (isDigit_iff c).1 hd
      have h9 : c.toNat - 48 ≤ 9 := by simp [isDigit] at hd; omega
      simp only [digitsLoop, isdigit, digit_not_ub p hd, hd, bind, Except.bind, Bool.not_true, Bool.false_eq_true,
        if_false, pure, Except.pure, digitStep_eq w r _ hr h9]
      simp only [List.mem_cons, forall_eq_or_imp, hD, true_and, List.length_cons, value]
      have e : (r * 10 + (c.toNat - 48)) * 10 ^ cs.length + value cs
          = r * 10 ^ (cs.length + 1) + ((c.toNat - 48) * 10 ^ cs.length + value cs) := by
        rw [Nat.pow_succ, Nat.add_mul]; ac_rfl
      by_cases hlt : r * 10 + (c.toNat - 48) < w.card
      · simp only [hlt, if_true]
        rw [ih _ hlt, e]
      · simp only [hlt, if_false]
        constructor
        · simp
        · rintro ⟨_, h1, h2⟩
          rw [← e] at h1
          have : r * 10 + (c.toNat - 48) ≤ (r * 10 + (c.toNat - 48)) * 10 ^ cs.length :=
            Nat.le_mul_of_pos_right _ (Nat.pow_pos (by omega))
          omega
    · have hD : ¬ Digit c := fun h => hd ((isDigit_iff c).2 h)
      simp only [digitsLoop, isdigit, bind, Except.bind]
      constructor
      · by_cases hu : p.ctypeUB c = true
        · simp [hu]
        · simp [hu, hd, throw, throwThe, MonadExceptOf.throw]
      · rintro ⟨h, _⟩; exact absurd (h c (by simp)) hD

theorem digitsLoop_error (p : Platform) (w : Width) (s : Str) (r : Nat) (hr : r < w.card) {e : ConvErr}
    (h : digitsLoop p w r s = .error e) : e = .bad ∨ (e = .ub .ctype ∧ ∃ c ∈ s, p.ctypeUB c = true) := by
  induction s generalizing r with
  | nil => simp [digitsLoop] at h
  | cons c cs ih =>
    by_cases hu : p.ctypeUB c = true
    · simp [digitsLoop, isdigit, hu, bind, Except.bind] at h
      right; exact ⟨h.symm, c, by simp, hu⟩
    · by_cases hd : isDigit c = true
      · have h9 : c.toNat - 48 ≤ 9 := by simp [isDigit] at hd; omega
        simp only [digitsLoop, isdigit, digit_not_ub p hd, hd, bind, Except.bind, Bool.not_true, Bool.false_eq_true,
          if_false, pure, Except.pure, digitStep_eq w r _ hr h9] at h
        by_cases hlt : r * 10 + (c.toNat - 48) < w.card
        · simp only [hlt, if_true] at h
          rcases ih _ hlt h with h | ⟨h, d, hd, hh⟩
          · exact .inl h
          · exact .inr ⟨h, d, by simp [hd], hh⟩
        · simp [hlt] at h; exact .inl h.symm
      · simp [digitsLoop, isdigit, hu, hd, bind, Except.bind, throw, throwThe, MonadExceptOf.throw] at h
        exact .inl h.symm

theorem card_pos (w : Width) : 0 < w.card := by cases w <;> decide

theorem unsignedDigits_ok (p : Platform) (w : Width) (s : Str) (v : Nat) :
    unsignedDigits p w s = .ok v ↔ Digits s ∧ v = value s ∧ v < w.card := by
  unfold unsignedDigits Digits
  by_cases h : s = []
  · simp [h]
  · simp only [h, if_false, digitsLoop_ok p w s 0 v (card_pos w)]
    simp [h]

theorem unsignedDigits_error (p : Platform) (w : Width) (s : Str) {e : ConvErr}
    (h : unsignedDigits p w s = .error e) : e = .bad ∨ (e = .ub .ctype ∧ ∃ c ∈ s, p.ctypeUB c = true) := by
  unfold unsignedDigits at h
  split at h
  · left; injection h with h; exact h.symm
  · exact digitsLoop_error p w s 0 (card_pos w) h

theorem not_digit_plus {ds : Str} : ¬ Digits (b%'+' :: ds) := by
  rintro ⟨_, h⟩; exact absurd (h _ List.mem_cons_self) (by unfold Digit; decide)

theorem not_digit_minus {ds : Str} : ¬ Digits (b%'-' :: ds) := by
  rintro ⟨_, h⟩; exact absurd (h _ List.mem_cons_self) (by unfold Digit; decide)

theorem unsigned_ok (p : Platform) (w : Width) (s : Str) (v : Nat) :
    unsignedFromString p w s = .ok v ↔ SpellsNat s v ∧ v < w.card := by
  cases s with
  | nil =>
    simp only [unsignedFromString, SpellsNat, reduceCtorEq, or_false, false_iff, not_and]
    rintro ⟨ds, rfl, ⟨h, _⟩, _⟩
    exact absurd rfl h
  | cons c cs =>
    by_cases hc : c = b%'+'
    · subst hc
      simp only [unsignedFromString, if_true, unsignedDigits_ok, SpellsNat]
      constructor
      · rintro ⟨h1, rfl, h3⟩; exact ⟨⟨cs, .inr rfl, h1, rfl⟩, h3⟩
      · rintro ⟨⟨ds, h | h, h2, rfl⟩, h3⟩
        · subst h; exact absurd h2 not_digit_plus
        · injection h with _ h; subst h; exact ⟨h2, rfl, h3⟩
    · simp only [unsignedFromString, hc, if_false, unsignedDigits_ok, SpellsNat]
      constructor
      · rintro ⟨h1, rfl, h3⟩; exact ⟨⟨_, .inl rfl, h1, rfl⟩, h3⟩
      · rintro ⟨⟨ds, h | h, h2, rfl⟩, h3⟩
        · subst h; exact ⟨h2, rfl, h3⟩
        · injection h with h _; exact absurd h hc

theorem unsigned_error (p : Platform) (w : Width) (s : Str) {e : ConvErr}
    (h : unsignedFromString p w s = .error e) : e = .bad ∨ (e = .ub .ctype ∧ ∃ c ∈ s, p.ctypeUB c = true) := by
  cases s with
  | nil => simp [unsignedFromString] at h; exact .inl h.symm
  | cons c cs =>
    simp only [unsignedFromString] at h
    split at h
    · rcases unsignedDigits_error p w cs h with h | ⟨h, d, hd, hu⟩
      · exact .inl h
      · exact .inr ⟨h, d, by simp [hd], hu⟩
    · exact unsignedDigits_error p w _ h

theorem card_cases (w : Width) : w.card = 256 ∨ w.card = 65536 ∨ w.card = 4294967296 ∨ w.card = 18446744073709551616 := by
  cases w <;> simp [Width.card]

/-- Negative numbers, when negation of the minimum is defined. -/
theorem neg_part (p : Platform) (w : Width) (hp : p.strictOverflow = false ∨ w.narrow = true) (v : Nat)
    (hv : v < w.card) :
    (do let m ← negate p w (-((w.card / 2 : Nat) : Int))
        if v > toUnsigned w m then throw ConvErr.bad
        let r ← negate p w (toSigned w v)
        return toSigned w (toUnsigned w r) : Except ConvErr Int)
      = if v ≤ w.card / 2 then .ok (-(v : Int)) else .error .bad := by
  have hm : ∃ m, negate p w (-((w.card / 2 : Nat) : Int)) = .ok m ∧ toUnsigned w m = w.card / 2 := by
    unfold negate
    rcases hp with hp | hp
    · cases w <;> simp [hp, Width.card, Width.narrow, toUnsigned]
    · cases w <;> simp [Width.narrow] at hp <;> simp [Width.card, Width.narrow, toUnsigned]
  obtain ⟨m, hm1, hm2⟩ := hm
  simp only [hm1, hm2, bind, Except.bind, throw, throwThe, MonadExceptOf.throw]
  by_cases h : v ≤ w.card / 2
  · rw [if_neg (by omega), if_pos h]
    have hr : ∃ r, negate p w (toSigned w v) = .ok r ∧ toSigned w (toUnsigned w r) = -(v : Int) := by
      unfold negate toSigned toUnsigned
      rcases hp with hp | hp
      · by_cases hn : w.narrow = true
        · simp only [hn, if_true]
          refine ⟨_, rfl, ?_⟩
          rcases card_cases w with hc | hc | hc | hc <;> simp only [hc] at * <;> (repeat' split) <;> omega
        · simp only [hn, hp]
          by_cases h2 : v = w.card / 2
          · have : (if v % w.card < w.card / 2 then ((v % w.card : Nat) : Int) else ((v % w.card : Nat) : Int) - (w.card : Int))
                = -((w.card / 2 : Nat) : Int) := by
              rcases card_cases w with hc | hc | hc | hc <;> simp only [hc] at * <;> (repeat' split) <;> omega
            rw [this]
            simp only [if_true]
            refine ⟨_, rfl, ?_⟩
            rcases card_cases w with hc | hc | hc | hc <;> simp only [hc] at * <;> (repeat' split) <;> omega
          · have : (if v % w.card < w.card / 2 then ((v % w.card : Nat) : Int) else ((v % w.card : Nat) : Int) - (w.card : Int))
                = v := by
              rcases card_cases w with hc | hc | hc | hc <;> simp only [hc] at * <;> (repeat' split) <;> omega
            rw [this]
            rw [if_neg (by simp), if_neg (by omega)]
            refine ⟨_, rfl, ?_⟩
            rcases card_cases w with hc | hc | hc | hc <;> simp only [hc] at * <;> (repeat' split) <;> omega
      · simp only [hp, if_true]
        refine ⟨_, rfl, ?_⟩
        rcases card_cases w with hc | hc | hc | hc <;> simp only [hc] at * <;> (repeat' split) <;> omega
    obtain ⟨r, hr1, hr2⟩ := hr
    rw [hr1]
    simp only [pure, Except.pure, hr2]
  · rw [if_pos (by omega), if_neg h]

theorem pos_part (w : Width) (v : Nat) (hv : v < w.card) :
    (do if v > w.card / 2 - 1 then throw ConvErr.bad
        return toSigned w v : Except ConvErr Int)
      = if v < w.card / 2 then .ok (v : Int) else .error .bad := by
  simp only [bind, Except.bind, throw, throwThe, MonadExceptOf.throw, pure, Except.pure]
  have := card_cases w
  by_cases h : v < w.card / 2
  · rw [if_neg (by omega), if_pos h]
    unfold toSigned
    rw [Nat.mod_eq_of_lt hv, if_pos h]
  · rw [if_pos (by omega), if_neg h]

theorem digits_head {c : Byte} {cs : Str} (h : Digits (c :: cs)) : c ≠ b%'+' ∧ c ≠ b%'-' :=
  ⟨fun e => not_digit_plus (e ▸ h), fun e => not_digit_minus (e ▸ h)⟩

theorem signed_ok (p : Platform) (w : Width) (s : Str) (i : Int)
    (hp : p.strictOverflow = false ∨ w.narrow = true ∨ s.head? ≠ some b%'-') :
    signedFromString p w s = .ok i ↔
      SpellsInt s i ∧ -((w.card / 2 : Nat) : Int) ≤ i ∧ i < ((w.card / 2 : Nat) : Int) := by
  have hcc := card_cases w
  cases s with
  | nil =>
    simp only [signedFromString, SpellsInt, reduceCtorEq, false_and, or_false, false_iff, not_and]
    rintro ⟨ds, ⟨h, _⟩, rfl, _⟩
    exact absurd rfl h
  | cons c cs =>
    by_cases hm : c = b%'-'
    · subst hm
      have hp' : p.strictOverflow = false ∨ w.narrow = true := by
        rcases hp with h | h | h
        · exact .inl h
        · exact .inr h
        · simp at h
      have e : SpellsInt (b%'-' :: cs) i ↔ Digits cs ∧ i = -(value cs : Int) := by
        constructor
        · rintro ⟨ds, hd, ⟨h, _⟩ | ⟨h, _⟩ | ⟨h, h2⟩⟩
          · subst h; exact absurd hd not_digit_minus
          · simp at h
          · injection h with _ h; subst h; exact ⟨hd, h2⟩
        · rintro ⟨h1, h2⟩; exact ⟨cs, h1, .inr (.inr ⟨rfl, h2⟩)⟩
      rw [e]
      simp only [signedFromString, if_true]
      cases hu : unsignedDigits p w cs with
      | error er =>
        simp only [bind, Except.bind, reduceCtorEq, false_iff]
        rintro ⟨⟨h1, h2⟩, h3, h4⟩
        have := (unsignedDigits_ok p w cs (value cs)).2 ⟨h1, rfl, by omega⟩
        rw [hu] at this; cases this
      | ok v =>
        obtain ⟨h1, rfl, h3⟩ := (unsignedDigits_ok p w cs v).1 hu
        have := neg_part p w hp' (value cs) h3
        simp only [bind, Except.bind] at this ⊢
        rw [this]
        split
        · simp only [Except.ok.injEq, h1, true_and]
          constructor
          · rintro rfl; refine ⟨rfl, ?_, ?_⟩ <;> omega
          · rintro ⟨rfl, _⟩; rfl
        · simp only [reduceCtorEq, false_iff]
          rintro ⟨⟨_, rfl⟩, h, _⟩
          omega
    · have e : ∀ val : Str, ((c = b%'+' ∧ val = cs) ∨ (c ≠ b%'+' ∧ val = c :: cs)) →
          (SpellsInt (c :: cs) i ↔ Digits val ∧ i = (value val : Int)) := by
        rintro val (⟨rfl, rfl⟩ | ⟨hc, rfl⟩)
        · constructor
          · rintro ⟨ds, hd, ⟨h, _⟩ | ⟨h, h2⟩ | ⟨h, h2⟩⟩
            · subst h; exact absurd hd not_digit_plus
            · injection h with _ h; subst h; exact ⟨hd, h2⟩
            · simp at h
          · rintro ⟨h1, h2⟩; exact ⟨val, h1, .inr (.inl ⟨rfl, h2⟩)⟩
        · constructor
          · rintro ⟨ds, hd, ⟨h, h2⟩ | ⟨h, h2⟩ | ⟨h, h2⟩⟩
            · subst h; exact ⟨hd, h2⟩
            · injection h with h; exact absurd h hc
            · injection h with h; exact absurd h hm
          · rintro ⟨h1, h2⟩; exact ⟨_, h1, .inl ⟨rfl, h2⟩⟩
      have key : ∀ val : Str, ((c = b%'+' ∧ val = cs) ∨ (c ≠ b%'+' ∧ val = c :: cs)) →
          ((do let v ← unsignedDigits p w val
               if v > w.card / 2 - 1 then throw ConvErr.bad
               return toSigned w v : Except ConvErr Int) = .ok i ↔
            SpellsInt (c :: cs) i ∧ -((w.card / 2 : Nat) : Int) ≤ i ∧ i < ((w.card / 2 : Nat) : Int)) := by
        intro val hval
        rw [e val hval]
        cases hu : unsignedDigits p w val with
        | error er =>
          simp only [bind, Except.bind, reduceCtorEq, false_iff]
          rintro ⟨⟨h1, h2⟩, h3, h4⟩
          have := (unsignedDigits_ok p w val (value val)).2 ⟨h1, rfl, by omega⟩
          rw [hu] at this; cases this
        | ok v =>
          obtain ⟨h1, rfl, h3⟩ := (unsignedDigits_ok p w val v).1 hu
          have := pos_part w (value val) h3
          simp only [bind, Except.bind] at this ⊢
          rw [this]
          split
          · simp only [Except.ok.injEq, h1, true_and]
            constructor
            · rintro rfl; refine ⟨rfl, ?_, ?_⟩ <;> omega
            · rintro ⟨rfl, _⟩; rfl
          · simp only [reduceCtorEq, false_iff]
            rintro ⟨⟨_, rfl⟩, h, _⟩
            omega
      by_cases hc : c = b%'+'
      · have := key cs (.inl ⟨hc, rfl⟩)
        rw [← this]
        simp only [signedFromString, hm, if_false, hc, if_true]
        simp
      · have := key (c :: cs) (.inr ⟨hc, rfl⟩)
        rw [← this]
        simp only [signedFromString, hm, if_false, hc]

theorem signed_error (p : Platform) (w : Width) (s : Str) {e : ConvErr}
    (h : signedFromString p w s = .error e) :
    e = .bad ∨ (e = .ub .ctype ∧ ∃ c ∈ s, p.ctypeUB c = true) ∨
      (e = .ub .signedOverflow ∧ p.strictOverflow = true ∧ w.narrow = false ∧ s.head? = some b%'-') := by
  cases s with
  | nil => simp [signedFromString] at h; exact .inl h.symm
  | cons c cs =>
    by_cases hm : c = b%'-'
    · subst hm
      simp only [signedFromString, if_true] at h
      cases hu : unsignedDigits p w cs with
      | error er =>
        simp only [hu, bind, Except.bind, Except.error.injEq] at h
        subst h
        rcases unsignedDigits_error p w cs hu with h | ⟨h, d, hd, hh⟩
        · exact .inl h
        · exact .inr (.inl ⟨h, d, by simp [hd], hh⟩)
      | ok v =>
        obtain ⟨_, _, hv⟩ := (unsignedDigits_ok p w cs v).1 hu
        by_cases hp : p.strictOverflow = false ∨ w.narrow = true
        · have := neg_part p w hp v hv
          simp only [hu, bind, Except.bind] at h this
          rw [this] at h
          split at h
          · cases h
          · injection h with h; exact .inl h.symm
        · simp only [not_or, Bool.not_eq_false, Bool.not_eq_true] at hp
          simp only [hu, bind, Except.bind, negate, hp.1, hp.2] at h
          simp at h
          exact .inr (.inr ⟨h.symm, hp.1, hp.2, rfl⟩)
    · have key : ∀ val : Str, (∀ d ∈ val, d ∈ c :: cs) →
          (do let v ← unsignedDigits p w val
              if v > w.card / 2 - 1 then throw ConvErr.bad
              return toSigned w v : Except ConvErr Int) = .error e →
          e = .bad ∨ (e = .ub .ctype ∧ ∃ d ∈ c :: cs, p.ctypeUB d = true) := by
        intro val hval h
        cases hu : unsignedDigits p w val with
        | error er =>
          simp only [hu, bind, Except.bind, Except.error.injEq] at h
          subst h
          rcases unsignedDigits_error p w val hu with h | ⟨h, d, hd, hh⟩
          · exact .inl h
          · exact .inr ⟨h, d, hval d hd, hh⟩
        | ok v =>
          obtain ⟨_, _, hv⟩ := (unsignedDigits_ok p w val v).1 hu
          have := pos_part w v hv
          simp only [hu, bind, Except.bind] at h this
          rw [this] at h
          split at h
          · cases h
          · injection h with h; exact .inl h.symm
      by_cases hc : c = b%'+'
      · have := key cs (by intro d hd; simp [hd])
        simp only [signedFromString, hm, if_false, hc, if_true] at h
        have h := this (by simpa using h)
        rcases h with h | h
        · exact .inl h
        · exact .inr (.inl h)
      · have := key (c :: cs) (by intro d hd; exact hd)
        simp only [signedFromString, hm, if_false, hc] at h
        rcases this h with h | h
        · exact .inl h
        · exact .inr (.inl h)

/-- Under strict overflow rules every negative number makes the wide conversions overflow. -/
theorem signed_overflow (p : Platform) (w : Width) (hp : p.strictOverflow = true) (hw : w.narrow = false)
    (ds : Str) (hd : Digits ds) (hv : value ds < w.card) :
    signedFromString p w (b%'-' :: ds) = .error (.ub .signedOverflow) := by
  have hu := (unsignedDigits_ok p w ds (value ds)).2 ⟨hd, rfl, hv⟩
  simp only [signedFromString, if_true, hu, bind, Except.bind, negate, hp, hw]
  simp

theorem anySpace_ok (p : Platform) (s : Str) (b : Bool) (h : anySpace p s = .ok b) :
    b = s.any Spec.blank := by
  induction s with
  | nil => simp [anySpace] at h; simp [h]
  | cons c cs ih =>
    simp only [anySpace, isSpace_eq] at h
    split at h
    · cases h
    · split at h
      · rename_i h2; injection h with h; simp [h2, ← h]
      · rename_i h2; simp [h2, ih h]

theorem anySpace_error (p : Platform) (s : Str) (e : ConvErr) (h : anySpace p s = .error e) :
    e = .ub .ctype ∧ ∃ c ∈ s, p.ctypeUB c = true := by
  induction s with
  | nil => simp [anySpace] at h
  | cons c cs ih =>
    simp only [anySpace] at h
    split at h
    · rename_i h2; injection h with h; exact ⟨h.symm, c, by simp, h2⟩
    · split at h
      · cases h
      · obtain ⟨h1, d, hd, h3⟩ := ih h; exact ⟨h1, d, by simp [hd], h3⟩

theorem anySpace_total (p : Platform) (s : Str) (h : ∀ c ∈ s, p.ctypeUB c = false) :
    anySpace p s = .ok (s.any Spec.blank) := by
  cases hs : anySpace p s with
  | ok b => rw [anySpace_ok p s b hs]
  | error e =>
    obtain ⟨_, c, hc, h2⟩ := anySpace_error p s e hs
    rw [h c hc] at h2; cases h2

end Verif.FromString
