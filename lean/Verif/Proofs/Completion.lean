import Verif.Model.Completion
import Verif.Spec.Complete
import Verif.Proofs.Space

set_option linter.unusedSimpArgs false

/-!
# Proofs about completion
-/

namespace Verif.Completion
open Spec

theorem trim_spec {p : Platform} {s rest : Str} (h : trimLeft p s = .ok rest) : ∃ gap, s = gap ++ rest ∧ Gap gap rest := by
  induction s with
  | nil => cases h; exact ⟨[], rfl, by simp, by simp⟩
  | cons c s ih =>
    simp only [trimLeft] at h
    split at h
    · cases h
    · split at h
      · rename_i hs
        obtain ⟨gap, h1, h2, h3⟩ := ih h
        refine ⟨c :: gap, by simp [h1], ?_, h3⟩
        intro x hx
        rcases List.mem_cons.1 hx with rfl | hx
        · rw [← isSpace_eq]; exact hs
        · exact h2 x hx
      · rename_i hs
        cases h
        exact ⟨[], rfl, by simp, by simpa [isSpace_eq] using hs⟩

theorem gap_unique {g1 g2 r1 r2 : Str} (h1 : Gap g1 r1) (h2 : Gap g2 r2) (h : g1 ++ r1 = g2 ++ r2) : g1 = g2 ∧ r1 = r2 := by
  induction g1 generalizing g2 with
  | nil =>
    cases g2 with
    | nil => exact ⟨rfl, h⟩
    | cons x g2 =>
      have : r1 = x :: (g2 ++ r2) := h
      have a := h1.2 x (by rw [this]; simp)
      have b := h2.1 x (by simp)
      rw [a] at b; cases b
  | cons x g1 ih =>
    cases g2 with
    | nil =>
      have : r2 = x :: (g1 ++ r1) := h.symm
      have a := h2.2 x (by rw [this]; simp)
      have b := h1.1 x (by simp)
      rw [a] at b; cases b
    | cons y g2 =>
      simp only [List.cons_append, List.cons.injEq] at h
      obtain ⟨a, b⟩ := ih (g2 := g2) ⟨fun z hz => h1.1 z (by simp [hz]), h1.2⟩ ⟨fun z hz => h2.1 z (by simp [hz]), h2.2⟩ h.2
      exact ⟨by rw [h.1, a], b⟩

theorem mem_complName {d : Bool} {name line c : Str} : c ∈ complName d name line ↔ d = false ∧ line <+: name ∧ c = name := by
  unfold complName
  cases d with
  | true => simp
  | false =>
    simp only [Bool.false_eq_true, if_false, true_and]
    split
    · rename_i h; simp [List.isPrefixOf_iff_prefix.1 h]
    · rename_i h
      have : ¬ line <+: name := fun hp => h (List.isPrefixOf_iff_prefix.2 hp)
      simp [this]

theorem mem_complEntries {dis : Id → Bool} {line : Str} {sub : MenuInfo → Forest → Except Fault (List Str)} {P : MenuInfo → Forest → Str → Prop} (kids : Forest) (l : List Str)
    (hs : ∀ m k l, .menu m k ∈ entries kids → sub m k = .ok l → ∀ c, c ∈ l ↔ P m k c) (h : complEntries dis line sub kids = .ok l) (c : Str) :
    c ∈ l ↔ (∃ cm, .cmd cm ∈ entries kids ∧ dis cm.id = false ∧ line <+: cm.name ∧ c = cm.name) ∨ ∃ m k, .menu m k ∈ entries kids ∧ P m k c := by
  induction kids generalizing l with
  | nil => cases h; simp [entries]
  | cmd c0 rest ih =>
    simp only [complEntries, bind, Except.bind] at h
    split at h
    · cases h
    · rename_i l1 h1
      cases h
      have := ih l1 (fun m k l hm => hs m k l (by simp [entries, hm])) h1
      simp only [List.mem_append, mem_complName, this, entries, List.mem_cons, Entry.cmd.injEq, reduceCtorEq, false_or]
      constructor
      · rintro (⟨a, b, c⟩ | ⟨cm, a, b⟩ | ⟨m, k, a⟩)
        · exact .inl ⟨c0, .inl rfl, a, b, c⟩
        · exact .inl ⟨cm, .inr a, b⟩
        · exact .inr ⟨m, k, a⟩
      · rintro (⟨cm, rfl | a, b⟩ | ⟨m, k, a⟩)
        · exact .inl b
        · exact .inr (.inl ⟨cm, a, b⟩)
        · exact .inr (.inr ⟨m, k, a⟩)
  | menu m0 k0 rest ih1 ih2 =>
    simp only [complEntries, bind, Except.bind] at h
    split at h
    · cases h
    · rename_i l0 h0
      split at h
      · cases h
      · rename_i l1 h1
        cases h
        have := ih2 l1 (fun m k l hm => hs m k l (by simp [entries, hm])) h1
        have hp := hs m0 k0 l0 (by simp [entries]) h0 c
        simp only [List.mem_append, this, hp, entries, List.mem_cons, Entry.menu.injEq, reduceCtorEq, false_or]
        constructor
        · rintro (a | a | ⟨m, k, a, b⟩)
          · exact .inr ⟨m0, k0, .inl ⟨rfl, rfl⟩, a⟩
          · exact .inl a
          · exact .inr ⟨m, k, .inr a, b⟩
        · rintro (a | ⟨m, k, ⟨rfl, rfl⟩ | a, b⟩)
          · exact .inr (.inl a)
          · exact .inl b
          · exact .inr (.inr ⟨m, k, a, b⟩)

/-- What is offered for the rest of the line at the name of the first menu of the path. -/
def Enters (dis : Id → Bool) (via : Bool) : Path → Str → Str → Prop
  | [], _, _ => False
  | (m, k) :: anc, line, c =>
    (∃ t gap rest c', (t = m.name ∨ (via = true ∧ t = bs!".." ∧ ¬ m.name <+: line)) ∧ line = t ++ gap ++ rest ∧ Gap gap rest ∧ Offered dis ((m, k) :: anc) rest c' ∧ c = t ++ bs!" " ++ c') ∨
    (¬ m.name <+: line ∧ ¬ (via = true ∧ bs!".." <+: line) ∧ dis m.id = false ∧ line <+: m.name ∧ c = m.name)

theorem spell_cons (w : Str) (ws : List Str) (e : Str) : spell (w :: ws) e = w ++ bs!" " ++ spell ws e := by simp [spell]

theorem ne_of_not_prefix {a b : Str} (h : ¬ a <+: b) : b ≠ a := fun he => h (he ▸ List.prefix_rfl)
theorem not_prefix_of {a b : Str} (h : b <+: a) (hne : b ≠ a) : ¬ a <+: b := fun h' => hne (List.IsPrefix.eq_of_length h (Nat.le_antisymm h.length_le h'.length_le))

theorem offered_iff (dis : Id → Bool) (m : MenuInfo) (k : Forest) (anc : Path) (line c : Str) : Offered dis ((m, k) :: anc) line c ↔
    ((∃ cm, .cmd cm ∈ entries k ∧ dis cm.id = false ∧ line <+: cm.name ∧ c = cm.name) ∨ ∃ m' k', .menu m' k' ∈ entries k ∧ Enters dis false ((m', k') :: (m, k) :: anc) line c) ∨
    Enters dis true anc line c := by
  constructor
  · rintro ⟨ws, q, r, e, ht, hb, rfl⟩
    cases ht with
    | here =>
      cases hb with
      | @cmd m kids anc cm r h1 h2 h3 => exact .inl (.inl ⟨cm, h1, h2, h3, rfl⟩)
      | @menu m kids anc m' k' r h1 h2 h3 h4 => exact .inl (.inr ⟨m', k', h1, .inr ⟨not_prefix_of h3 h4, by simp, h2, h3, rfl⟩⟩)
      | parent h2 h3 h4 h5 => exact .inr (.inr ⟨not_prefix_of h3 h4, by simp [h5], h2, h3, rfl⟩)
    | @down p kids anc m' k' gap rest ws q r h1 h2 h3 =>
      exact .inl (.inr ⟨m', k', h1, .inl ⟨m'.name, gap, rest, _, .inl rfl, rfl, h2, ⟨ws, q, r, e, h3, hb, rfl⟩, spell_cons _ _ _⟩⟩)
    | @up m kids p pk anc gap rest ws q r h2 h3 =>
      exact .inr (.inl ⟨p.name, gap, rest, _, .inl rfl, rfl, h2, ⟨ws, q, r, e, h3, hb, rfl⟩, spell_cons _ _ _⟩)
    | @dots m kids p pk anc gap rest ws q r h2 hn h3 =>
      exact .inr (.inl ⟨bs!"..", gap, rest, _, .inr ⟨rfl, rfl, hn⟩, rfl, h2, ⟨ws, q, r, e, h3, hb, rfl⟩, spell_cons _ _ _⟩)
  · rintro ((⟨cm, h1, h2, h3, rfl⟩ | ⟨m', k', h1, h⟩) | h)
    · exact ⟨[], _, line, _, .here _ _, .cmd h1 h2 h3, rfl⟩
    · rcases h with ⟨t, gap, rest, c', h2, rfl, h3, ⟨ws, q, r, e, h4, h5, rfl⟩, rfl⟩ | ⟨h2, h3, h4, h5, rfl⟩
      · rcases h2 with rfl | ⟨h2, _⟩
        · exact ⟨_, q, r, e, .down h1 h3 h4, h5, (spell_cons _ _ _).symm⟩
        · cases h2
      · exact ⟨[], _, line, _, .here _ _, .menu h1 h4 h5 (ne_of_not_prefix h2), rfl⟩
    · cases anc with
      | nil => exact h.elim
      | cons pk anc =>
        obtain ⟨p, pk⟩ := pk
        rcases h with ⟨t, gap, rest, c', h2, rfl, h3, ⟨ws, q, r, e, h4, h5, rfl⟩, rfl⟩ | ⟨h2, h3, h4, h5, rfl⟩
        · rcases h2 with rfl | ⟨_, rfl, h2⟩
          · exact ⟨_, q, r, e, .up h3 h4, h5, (spell_cons _ _ _).symm⟩
          · exact ⟨_, q, r, e, .dots h3 h2 h4, h5, (spell_cons _ _ _).symm⟩
        · exact ⟨[], _, line, _, .here _ _, .parent h4 h5 (ne_of_not_prefix h2) (by simpa using h3), rfl⟩

/-- The rest of a line after a name, completed in a menu. -/
def completeRest (p : Platform) (dis : Id → Bool) (fuel : Nat) (path : Path) (line pre : Str) : Except Fault (List Str) := do
  let rest ← trimLeft p (line.drop pre.length)
  let l ← complCurrent p dis fuel rest path
  .ok (l.map (fun c => pre ++ bs!" " ++ c))

theorem complMenu_eq (p : Platform) (dis : Id → Bool) (fuel : Nat) (via : Bool) (m : MenuInfo) (k : Forest) (anc : Path) (line : Str) :
    complMenu p dis (fuel + 1) via ((m, k) :: anc) line =
      if m.name.isPrefixOf line then completeRest p dis fuel ((m, k) :: anc) line m.name
      else if via && (bs!"..").isPrefixOf line then completeRest p dis fuel ((m, k) :: anc) line bs!".."
      else .ok (complName (dis m.id) m.name line) := by
  have key : ∀ pre : Str, (do
      let rest ← trimLeft p (line.drop pre.length)
      let a ← complEntries dis rest (fun m' kids' => complMenu p dis fuel false ((m', kids') :: (m, k) :: anc) rest) k
      let b ← complMenu p dis fuel true anc rest
      .ok ((a ++ b).map (fun c => pre ++ bs!" " ++ c)) : Except Fault (List Str)) = completeRest p dis fuel ((m, k) :: anc) line pre := by
    intro pre
    simp only [completeRest, complCurrent, bind, Except.bind]
    cases trimLeft p (line.drop pre.length) with
    | error f => rfl
    | ok rest =>
      simp only
      cases complEntries dis rest (fun m' kids' => complMenu p dis fuel false ((m', kids') :: (m, k) :: anc) rest) k with
      | error f => rfl
      | ok a =>
        simp only
        cases complMenu p dis fuel true anc rest <;> rfl
  simp only [complMenu]
  rw [← key m.name, ← key bs!".."]

theorem completeRest_iff {p : Platform} {dis : Id → Bool} {fuel : Nat} {path : Path} {line pre : Str} {l : List Str}
    (ih : ∀ line l, complCurrent p dis fuel line path = .ok l → ∀ c, c ∈ l ↔ Offered dis path line c) (hp : pre <+: line) (h : completeRest p dis fuel path line pre = .ok l) (c : Str) :
    c ∈ l ↔ ∃ gap rest c', line = pre ++ gap ++ rest ∧ Gap gap rest ∧ Offered dis path rest c' ∧ c = pre ++ bs!" " ++ c' := by
  obtain ⟨tl, rfl⟩ := hp
  simp only [completeRest, bind, Except.bind, List.drop_left] at h
  split at h
  · cases h
  · rename_i rest hr
    obtain ⟨gap, rfl, hg⟩ := trim_spec hr
    split at h
    · cases h
    · rename_i l1 h1
      cases h
      simp only [List.mem_map]
      constructor
      · rintro ⟨c', hc, rfl⟩
        exact ⟨gap, rest, c', by simp, hg, (ih _ _ h1 c').1 hc, rfl⟩
      · rintro ⟨gap', rest', c', he, hg', ho, rfl⟩
        rw [List.append_assoc] at he
        obtain ⟨-, rfl⟩ := gap_unique hg hg' (List.append_cancel_left he)
        exact ⟨c', (ih _ _ h1 c').2 ho, rfl⟩

theorem enters_iff {p : Platform} {dis : Id → Bool} {fuel : Nat} (ih : ∀ path line l, complCurrent p dis fuel line path = .ok l → ∀ c, c ∈ l ↔ Offered dis path line c)
    (via : Bool) (path : Path) (line : Str) (l : List Str) (h : complMenu p dis (fuel + 1) via path line = .ok l) (c : Str) : c ∈ l ↔ Enters dis via path line c := by
  cases path with
  | nil => cases h; simp [Enters]
  | cons mk anc =>
    obtain ⟨m, k⟩ := mk
    rw [complMenu_eq] at h
    have hdots : ∀ gap rest, bs!".." <+: bs!".." ++ gap ++ rest := fun gap rest => ⟨gap ++ rest, by simp⟩
    by_cases h1 : m.name <+: line
    · rw [if_pos (List.isPrefixOf_iff_prefix.2 h1)] at h
      rw [completeRest_iff (ih _) h1 h c]
      constructor
      · rintro ⟨gap, rest, c', a1, a2, a3, a4⟩
        exact .inl ⟨m.name, gap, rest, c', .inl rfl, a1, a2, a3, a4⟩
      · rintro (⟨t, gap, rest, c', a0, a1, a2, a3, a4⟩ | ⟨a0, _⟩)
        · rcases a0 with rfl | ⟨_, _, a0⟩
          · exact ⟨gap, rest, c', a1, a2, a3, a4⟩
          · exact absurd h1 a0
        · exact absurd h1 a0
    · rw [if_neg (by rwa [List.isPrefixOf_iff_prefix])] at h
      by_cases h2 : via = true ∧ bs!".." <+: line
      · rw [if_pos (by rw [Bool.and_eq_true, List.isPrefixOf_iff_prefix]; exact h2)] at h
        rw [completeRest_iff (ih _) h2.2 h c]
        constructor
        · rintro ⟨gap, rest, c', a1, a2, a3, a4⟩
          exact .inl ⟨bs!"..", gap, rest, c', .inr ⟨h2.1, rfl, h1⟩, a1, a2, a3, a4⟩
        · rintro (⟨t, gap, rest, c', a0, a1, a2, a3, a4⟩ | ⟨_, a0, _⟩)
          · rcases a0 with rfl | ⟨_, rfl, _⟩
            · exact absurd ⟨gap ++ rest, by rw [a1]; simp⟩ h1
            · exact ⟨gap, rest, c', a1, a2, a3, a4⟩
          · exact absurd h2 a0
      · rw [if_neg (by rw [Bool.and_eq_true, List.isPrefixOf_iff_prefix]; exact h2)] at h
        cases h
        rw [mem_complName]
        constructor
        · rintro ⟨a1, a2, a3⟩; exact .inr ⟨h1, h2, a1, a2, a3⟩
        · rintro (⟨t, gap, rest, c', a0, a1, a2, a3, a4⟩ | ⟨_, _, a1, a2, a3⟩)
          · rcases a0 with rfl | ⟨b, rfl, _⟩
            · exact absurd ⟨gap ++ rest, by rw [a1]; simp⟩ h1
            · exact absurd ⟨b, by rw [a1]; exact hdots _ _⟩ h2
          · exact ⟨a1, a2, a3⟩

theorem menu_zero {p : Platform} {dis : Id → Bool} {via : Bool} {path : Path} {line : Str} {l : List Str} (h : complMenu p dis 0 via path line = .ok l) (c : Str) :
    c ∈ l ↔ Enters dis via path line c := by
  cases path with
  | nil => cases h; simp [Enters]
  | cons mk anc => cases h

/-- The completions of a menu are exactly what should be offered. -/
theorem current_iff (p : Platform) (dis : Id → Bool) : ∀ (fuel : Nat) (path : Path) (line : Str) (l : List Str), complCurrent p dis fuel line path = .ok l →
    ∀ c, c ∈ l ↔ Offered dis path line c := by
  have step : ∀ fuel, (∀ via path line l, complMenu p dis fuel via path line = .ok l → ∀ c, c ∈ l ↔ Enters dis via path line c) →
      ∀ path line l, complCurrent p dis fuel line path = .ok l → ∀ c, c ∈ l ↔ Offered dis path line c := by
    intro fuel hM path line l h c
    cases path with
    | nil =>
      cases h
      simp only [List.not_mem_nil, false_iff]
      rintro ⟨ws, q, r, e, ht, hb, _⟩
      cases ht; cases hb
    | cons mk anc =>
      obtain ⟨m, k⟩ := mk
      rw [offered_iff]
      simp only [complCurrent, bind, Except.bind] at h
      split at h
      · cases h
      · rename_i a ha
        split at h
        · cases h
        · rename_i b hb
          cases h
          rw [List.mem_append, hM _ _ _ _ hb c, mem_complEntries k a (fun m' k' l _ hl => hM _ _ _ _ hl) ha c]
  intro fuel
  induction fuel with
  | zero => exact step 0 (fun via path line l h c => menu_zero h c)
  | succ fuel ih => exact step _ (fun via path line l h c => enters_iff ih via path line l h c)

/-! ### Sorting -/

theorem strLt_iff {a b : Str} : strLt a b = true ↔ StrBefore a b := by
  induction a generalizing b with
  | nil =>
    cases b with
    | nil => simp only [strLt, Bool.false_eq_true, false_iff]; intro h; cases h
    | cons c s => simp only [strLt, true_iff]; exact .nil c s
  | cons x a ih =>
    cases b with
    | nil => simp only [strLt, Bool.false_eq_true, false_iff]; intro h; cases h
    | cons y b =>
      simp only [strLt, Bool.or_eq_true, decide_eq_true_eq, Bool.and_eq_true, beq_iff_eq, ih]
      constructor
      · rintro (h | ⟨rfl, h⟩)
        · exact .lt h
        · exact .cons h
      · intro h
        cases h with
        | lt h => exact .inl h
        | cons h => exact .inr ⟨rfl, h⟩

theorem before_total (a b : Str) : StrBefore a b ∨ a = b ∨ StrBefore b a := by
  induction a generalizing b with
  | nil => cases b with
    | nil => exact .inr (.inl rfl)
    | cons c s => exact .inl (.nil c s)
  | cons x a ih => cases b with
    | nil => exact .inr (.inr (.nil x a))
    | cons y b =>
      rcases Nat.lt_trichotomy x.toNat y.toNat with h | h | h
      · exact .inl (.lt h)
      · have : x = y := UInt8.toNat_inj.1 h
        subst this
        rcases ih b with h | rfl | h
        · exact .inl (.cons h)
        · exact .inr (.inl rfl)
        · exact .inr (.inr (.cons h))
      · exact .inr (.inr (.lt h))

theorem before_trans {a b c : Str} (h1 : StrBefore a b) (h2 : StrBefore b c) : StrBefore a c := by
  induction h1 generalizing c with
  | nil x s => cases h2 <;> exact .nil _ _
  | lt h => cases h2 with
    | lt h' => exact .lt (Nat.lt_trans h h')
    | cons h' => exact .lt h
  | cons h ih => cases h2 with
    | lt h' => exact .lt h'
    | cons h' => exact .cons (ih h')

theorem before_irrefl (a : Str) : ¬ StrBefore a a := by
  induction a with
  | nil => intro h; cases h
  | cons x a ih => intro h; cases h with
    | lt h => exact Nat.lt_irrefl _ h
    | cons h => exact ih h

theorem mem_insertSorted {x c : Str} {l : List Str} : c ∈ insertSorted x l ↔ c = x ∨ c ∈ l := by
  induction l with
  | nil => simp [insertSorted]
  | cons y l ih =>
    simp only [insertSorted]
    split
    · simp only [List.mem_cons, ih]; constructor <;> rintro (h | h | h) <;> simp [h]
    · simp

theorem mem_sort {c : Str} {l : List Str} : c ∈ sort l ↔ c ∈ l := by
  induction l with
  | nil => rfl
  | cons x l ih =>
    show c ∈ insertSorted x (sort l) ↔ _
    rw [mem_insertSorted, ih, List.mem_cons]

theorem sorted_insert {x : Str} {l : List Str} (h : l.Pairwise (fun a b => ¬ StrBefore b a)) : (insertSorted x l).Pairwise (fun a b => ¬ StrBefore b a) := by
  induction l with
  | nil => simp [insertSorted]
  | cons y l ih =>
    obtain ⟨h1, h2⟩ := List.pairwise_cons.1 h
    simp only [insertSorted]
    split
    · rename_i hy
      rw [strLt_iff] at hy
      refine List.pairwise_cons.2 ⟨?_, ih h2⟩
      intro z hz
      rcases mem_insertSorted.1 hz with rfl | hz
      · exact fun hb => before_irrefl _ (before_trans hy hb)
      · exact h1 z hz
    · rename_i hy
      rw [strLt_iff] at hy
      refine List.pairwise_cons.2 ⟨?_, h⟩
      intro z hz
      rcases List.mem_cons.1 hz with rfl | hzl
      · exact hy
      · intro hb
        rcases before_total x y with ha | ha | ha
        · exact h1 z hzl (before_trans hb ha)
        · rw [ha] at hb; exact h1 z hzl hb
        · exact hy ha

theorem sorted_sort (l : List Str) : (sort l).Pairwise (fun a b => ¬ StrBefore b a) := by
  induction l with
  | nil => exact .nil
  | cons x l ih => exact sorted_insert ih

theorem mem_unique {c : Str} {l : List Str} : c ∈ unique l ↔ c ∈ l := by
  induction l with
  | nil => rfl
  | cons x l ih =>
    rw [List.mem_cons, ← ih]
    simp only [unique]
    split
    · rename_i h; simp [h]
    · rename_i y ys h
      rw [h]
      split
      · rename_i hx; subst hx; simp
      · simp

theorem strict_unique {l : List Str} (h : l.Pairwise (fun a b => ¬ StrBefore b a)) : (unique l).Pairwise StrBefore := by
  induction l with
  | nil => exact .nil
  | cons x l ih =>
    obtain ⟨h1, h2⟩ := List.pairwise_cons.1 h
    have ihl := ih h2
    have hm : ∀ z, z ∈ unique l → ¬ StrBefore z x := fun z hz => h1 z (mem_unique.1 hz)
    simp only [unique]
    split
    · simp
    · rename_i y ys hu
      rw [hu] at ihl hm
      split
      · exact ihl
      · rename_i hne
        refine List.pairwise_cons.2 ⟨?_, ihl⟩
        have hxy : StrBefore x y := by
          rcases before_total x y with h | h | h
          · exact h
          · exact absurd h hne
          · exact absurd h (hm y (by simp))
        intro z hz
        rcases List.mem_cons.1 hz with rfl | hz
        · exact hxy
        · exact before_trans hxy ((List.pairwise_cons.1 ihl).1 z hz)

/-! ### White space -/

theorem strip_append (a b : Str) : strip (a ++ b) = strip a ++ strip b := List.filter_append ..

theorem strip_gap {gap rest : Str} (h : Gap gap rest) : strip gap = [] := by
  unfold strip
  rw [List.filter_eq_nil_iff]
  intro x hx
  simp [h.1 x hx]

theorem strip_prefix {a b : Str} (h : a <+: b) : strip a <+: strip b := by
  obtain ⟨t, rfl⟩ := h
  rw [strip_append]
  exact List.prefix_append ..

theorem typing_strip {path : Path} {line : Str} {ws : List Str} {q : Path} {r : Str} (h : Typing path line ws q r) (e : Str) (hr : r <+: e) : strip line <+: strip (spell ws e) := by
  have sp : strip bs!" " = [] := by decide
  induction h with
  | here => simpa [spell] using strip_prefix hr
  | down _ hg _ ih => rw [spell_cons]; simp only [strip_append, strip_gap hg, sp, List.append_nil]; exact (List.prefix_append_right_inj _).2 (ih hr)
  | up hg _ ih => rw [spell_cons]; simp only [strip_append, strip_gap hg, sp, List.append_nil]; exact (List.prefix_append_right_inj _).2 (ih hr)
  | dots hg _ _ ih => rw [spell_cons]; simp only [strip_append, strip_gap hg, sp, List.append_nil]; exact (List.prefix_append_right_inj _).2 (ih hr)

theorem begins_prefix {dis : Id → Bool} {q : Path} {r e : Str} (h : Begins dis q r e) : r <+: e := by
  cases h <;> assumption

/-! ### Termination -/

/-- No two neighbours of the chain have no name, nor any two below. -/
def GoodPath : Path → Prop
  | [] => True
  | (m, k) :: anc => Separated (m.name = []) k ∧ (∀ pk ∈ anc.head?, ¬ (m.name = [] ∧ pk.1.name = [])) ∧ GoodPath anc

theorem separated_entry {P : Prop} {kids : Forest} (h : Separated P kids) {m : MenuInfo} {k : Forest} (hm : .menu m k ∈ entries kids) :
    ¬ (m.name = [] ∧ P) ∧ Separated (m.name = []) k := by
  induction kids with
  | nil => cases hm
  | cmd c rest ih => simp only [entries, List.mem_cons, reduceCtorEq, false_or] at hm; exact ih h hm
  | menu m0 k0 rest ih1 ih2 =>
    simp only [entries, List.mem_cons, Entry.menu.injEq] at hm
    rcases hm with ⟨rfl, rfl⟩ | hm
    · exact ⟨h.1, h.2.1⟩
    · exact ih2 h.2.2 hm

theorem good_down {m : MenuInfo} {k : Forest} {anc : Path} (h : GoodPath ((m, k) :: anc)) {m' : MenuInfo} {k' : Forest} (hm : .menu m' k' ∈ entries k) :
    GoodPath ((m', k') :: (m, k) :: anc) := by
  obtain ⟨a, b⟩ := separated_entry h.1 hm
  exact ⟨b, by simpa using a, h⟩

theorem trim_fault {p : Platform} {s : Str} {f : Fault} (h : trimLeft p s = .error f) : f = .ub .ctype := by
  induction s with
  | nil => cases h
  | cons c s ih =>
    simp only [trimLeft] at h
    split at h
    · cases h; rfl
    · split at h
      · exact ih h
      · cases h

theorem trim_length {p : Platform} {s rest : Str} (h : trimLeft p s = .ok rest) : rest.length ≤ s.length := by
  obtain ⟨g, rfl, _⟩ := trim_spec h
  simp

/-- The depth of recursion needed for a menu and a line. -/
def need : Path → Str → Nat
  | [], _ => 0
  | (m, _) :: _, line => if m.name = [] then 2 * line.length + 2 else 2 * line.length + 1

theorem entries_fault {dis : Id → Bool} {line : Str} {sub : MenuInfo → Forest → Except Fault (List Str)} {kids : Forest} {f : Fault}
    (h : complEntries dis line sub kids = .error f) : ∃ m k, .menu m k ∈ entries kids ∧ sub m k = .error f := by
  induction kids with
  | nil => cases h
  | cmd c rest ih =>
    simp only [complEntries, bind, Except.bind] at h
    split at h
    · rename_i e he
      cases h
      obtain ⟨m, k, a, b⟩ := ih he
      exact ⟨m, k, by simp [entries, a], b⟩
    · cases h
  | menu m0 k0 rest ih1 ih2 =>
    simp only [complEntries, bind, Except.bind] at h
    split at h
    · rename_i e he
      cases h
      exact ⟨m0, k0, by simp [entries], he⟩
    · split at h
      · rename_i e he
        cases h
        obtain ⟨m, k, a, b⟩ := ih2 he
        exact ⟨m, k, by simp [entries, a], b⟩
      · cases h

theorem current_fault {p : Platform} {dis : Id → Bool} {fuel : Nat} {line : Str} {m : MenuInfo} {k : Forest} {anc : Path} {f : Fault} (h : complCurrent p dis fuel line ((m, k) :: anc) = .error f) :
    (∃ m' k', .menu m' k' ∈ entries k ∧ complMenu p dis fuel false ((m', k') :: (m, k) :: anc) line = .error f) ∨ complMenu p dis fuel true anc line = .error f := by
  simp only [complCurrent, bind, Except.bind] at h
  split at h
  · rename_i e he; cases h; exact .inl (entries_fault he)
  · split at h
    · rename_i e he; cases h; exact .inr he
    · cases h

theorem menu_fault (p : Platform) (dis : Id → Bool) : ∀ (fuel : Nat) (via : Bool) (path : Path) (line : Str) (f : Fault), GoodPath path → need path line ≤ fuel →
    complMenu p dis fuel via path line = .error f → f = .ub .ctype := by
  intro fuel
  induction fuel with
  | zero =>
    intro via path line f hg hn h
    cases path with
    | nil => cases h
    | cons mk anc =>
      obtain ⟨m, k⟩ := mk
      simp only [need] at hn
      split at hn <;> omega
  | succ fuel ih =>
    intro via path line f hg hn h
    cases path with
    | nil => cases h
    | cons mk anc =>
      obtain ⟨m, k⟩ := mk
      rw [complMenu_eq] at h
      -- the rest of the line leaves enough for the neighbours
      have key : ∀ pre, pre <+: line → (pre = [] → m.name = []) → completeRest p dis fuel ((m, k) :: anc) line pre = .error f → f = .ub .ctype := by
        intro pre hp hpe h
        have hlen := hp.length_le
        simp only [completeRest, bind, Except.bind] at h
        split at h
        · rename_i e he; cases h; exact trim_fault he
        · rename_i rest hr
          have hrl := trim_length hr
          rw [List.length_drop] at hrl
          split at h
          · rename_i e he
            cases h
            have bound : ∀ m2 : MenuInfo, ¬ (m.name = [] ∧ m2.name = []) → (if m2.name = [] then 2 * rest.length + 2 else 2 * rest.length + 1) ≤ fuel := by
              intro m2 h2
              simp only [need] at hn
              by_cases hpre : pre = []
              · have hm := hpe hpre
                have h3 : m2.name ≠ [] := fun h => h2 ⟨hm, h⟩
                rw [if_pos hm] at hn
                rw [if_neg h3]; omega
              · have : 1 ≤ pre.length := List.length_pos_iff.2 hpre
                split at hn <;> split <;> omega
            rcases current_fault he with ⟨m', k', hm', he'⟩ | he'
            · exact ih false _ rest _ (good_down hg hm') (bound m' (fun h => (good_down hg hm').2.1 (m, k) (by simp) ⟨h.2, h.1⟩)) he'
            · cases anc with
              | nil => cases fuel <;> cases he'
              | cons pk anc =>
                obtain ⟨q, pk⟩ := pk
                exact ih true _ rest _ hg.2.2 (bound q (fun h => hg.2.1 (q, pk) (by simp) h)) he'
          · cases h
      split at h
      · rename_i h1
        exact key m.name (List.isPrefixOf_iff_prefix.1 h1) id h
      · split at h
        · rename_i h1
          rw [Bool.and_eq_true, List.isPrefixOf_iff_prefix] at h1
          exact key bs!".." h1.2 (fun h => by cases h) h
        · cases h

theorem locate_good {P : Prop} (id : Id) : ∀ (f : Forest) (m : MenuInfo) (k : Forest) (anc path : Path), GoodPath ((m, k) :: anc) → (∀ e ∈ entries f, e ∈ entries k) → Separated P f →
    f.locate id ((m, k) :: anc) = some path → GoodPath path := by
  intro f
  induction f generalizing P with
  | nil => intro m k anc path _ _ _ h; cases h
  | cmd c rest ih =>
    intro m k anc path hg he hs h
    exact ih m k anc path hg (fun e hx => he e (by simp [entries, hx])) hs h
  | menu m0 k0 rest ih1 ih2 =>
    intro m k anc path hg he hs h
    have hg0 : GoodPath ((m0, k0) :: (m, k) :: anc) := good_down hg (he _ (by simp [entries]))
    simp only [Forest.locate] at h
    split at h
    · cases h; exact hg0
    · split at h
      · rename_i p' hp
        cases h
        exact ih1 m0 k0 _ _ hg0 (fun e hx => hx) hs.2.1 hp
      · exact ih2 m k anc path hg (fun e hx => he e (by simp [entries, hx])) hs.2.2 h

theorem tree_good {t : Tree} (h : Separated (t.root.name = []) t.kids) {id : Id} {path : Path} (hl : t.locate id = some path) : GoodPath path := by
  have hr : GoodPath [(t.root, t.kids)] := ⟨h, by simp, trivial⟩
  unfold Tree.locate at hl
  split at hl
  · cases hl; exact hr
  · exact locate_good id t.kids _ _ _ _ hr (fun e he => he) h hl

/-! ### The depth given does not matter -/

theorem entries_mono {dis : Id → Bool} {line : Str} {s1 s2 : MenuInfo → Forest → Except Fault (List Str)} (hs : ∀ m k, s1 m k ≠ .error .stackOverflow → s2 m k = s1 m k) (kids : Forest)
    (h : complEntries dis line s1 kids ≠ .error .stackOverflow) : complEntries dis line s2 kids = complEntries dis line s1 kids := by
  induction kids with
  | nil => rfl
  | cmd c rest ih =>
    simp only [complEntries, bind, Except.bind] at h ⊢
    rw [ih (fun hc => h (by rw [hc]))]
  | menu m k rest ih1 ih2 =>
    simp only [complEntries, bind, Except.bind] at h ⊢
    have h1 : s1 m k ≠ .error .stackOverflow := fun hc => h (by rw [hc])
    rw [hs m k h1]
    cases hm : s1 m k with
    | error f => rfl
    | ok a =>
      rw [hm] at h
      simp only at h ⊢
      rw [ih2 (fun hc => h (by rw [hc]))]

theorem current_mono {p : Platform} {dis : Id → Bool} {n1 n2 : Nat} (hM : ∀ via path line, complMenu p dis n1 via path line ≠ .error .stackOverflow → complMenu p dis n2 via path line = complMenu p dis n1 via path line)
    (path : Path) (line : Str) (h : complCurrent p dis n1 line path ≠ .error .stackOverflow) : complCurrent p dis n2 line path = complCurrent p dis n1 line path := by
  cases path with
  | nil => rfl
  | cons mk anc =>
    obtain ⟨m, k⟩ := mk
    simp only [complCurrent, bind, Except.bind] at h ⊢
    rw [entries_mono (fun m' k' => hM false ((m', k') :: (m, k) :: anc) line) k (fun hc => h (by rw [hc]))]
    cases he : complEntries dis line (fun m' k' => complMenu p dis n1 false ((m', k') :: (m, k) :: anc) line) k with
    | error f => rfl
    | ok a =>
      rw [he] at h
      simp only at h ⊢
      rw [hM true anc line (fun hc => h (by rw [hc]))]

theorem menu_mono (p : Platform) (dis : Id → Bool) : ∀ (n : Nat) (via : Bool) (path : Path) (line : Str), complMenu p dis n via path line ≠ .error .stackOverflow →
    complMenu p dis (n + 1) via path line = complMenu p dis n via path line := by
  intro n
  induction n with
  | zero =>
    intro via path line h
    cases path with
    | nil => rfl
    | cons mk anc => exact absurd rfl h
  | succ n ih =>
    intro via path line h
    cases path with
    | nil => rfl
    | cons mk anc =>
      obtain ⟨m, k⟩ := mk
      rw [complMenu_eq] at h
      rw [complMenu_eq, complMenu_eq]
      have key : ∀ pre, completeRest p dis n ((m, k) :: anc) line pre ≠ .error .stackOverflow →
          completeRest p dis (n + 1) ((m, k) :: anc) line pre = completeRest p dis n ((m, k) :: anc) line pre := by
        intro pre h
        simp only [completeRest, bind, Except.bind] at h ⊢
        cases ht : trimLeft p (line.drop pre.length) with
        | error f => rfl
        | ok rest =>
          rw [ht] at h
          simp only at h ⊢
          rw [current_mono ih _ _ (fun hc => h (by rw [hc]))]
      split
      · rename_i h1
        rw [if_pos h1] at h
        exact key _ h
      · rename_i h1
        rw [if_neg h1] at h
        split
        · rename_i h2
          rw [if_pos h2] at h
          exact key _ h
        · rfl

end Verif.Completion
